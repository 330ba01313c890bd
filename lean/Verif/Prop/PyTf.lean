import Verif.Model.PyTf
import Verif.Prop.Spatial

/-!
# The rotation and pose classes of Python (C123)

The meaning of an object is that of `Verif.Prop.Spatial`, a map of the points given by Mathlib's
quaternions, dual numbers and matrices; Euler angles mean the product of the rotations about the axes z, y and x.
-/

namespace Verif.Py

open Verif.Tf
open Verif.Tf.Cpp (Val AxangOk dir means_quat means_rotmat means_axang means_ang means_tfm means_duqu
  means_qutr rot9_quat axang_facts quat2axang_ok ang_den)
open scoped Quaternion Matrix
open Quaternion NormedSpace

/-- The rotation of the angles `z`, `y`, `x` about the axes of the same names, the one about x first. -/
noncomputable def zyxDen (z y x : ℝ) : ℍ[ℝ] :=
  exp ((z / 2) • (dir .Z).pure) * exp ((y / 2) • (dir .Y).pure) * exp ((x / 2) • (dir .X).pure)

/-- The object is a rotation or a pose and stands for the map `f` of the points. -/
def Obj.Means : Obj → (V3 → V3) → Prop
  | .val (.vec _), _ => False
  | .val v, f => v.Means f
  | .zyx z y x, f => Rotates f (zyxDen z y x)
  | .rpy z y x, f => Rotates f (zyxDen z y x)
  | _, _ => False

/-- The object is an instance of the class. -/
def Obj.Is : Obj → Cls → Prop
  | .val (.quat _), c => c = .quat
  | .val (.rotmat _), c => c = .rotmat
  | .val (.axang _), c => c = .axang
  | .val (.tfm _), c => c = .tfm
  | .val (.duqu _), c => c = .duqu
  | .val (.qutr _), c => c = .qutr
  | .zyx _ _ _, c => c = .zyx
  | .rpy _ _ _, c => c = .rpy
  | _, _ => False

/-- A class of rotations. -/
def Cls.IsRot : Cls → Prop
  | .tfm | .duqu | .qutr => False
  | _ => True

/-- A rotation: an angle about an axis or an object of a class of rotations. -/
def Obj.IsRot : Obj → Prop
  | .val (.ang _ _) => True
  | o => ∃ c, o.Is c ∧ c.IsRot

/-! ## Euler angles -/

theorem zyx_den (z y x : ℝ) : zyxDen z y x =
    (angle2axang .Z z).den * (angle2axang .Y y).den * (angle2axang .X x).den := by
  rw [zyxDen, ang_den, ang_den, ang_den]

theorem means_zyx {z y x : ℝ} {f : V3 → V3} :
    Rotates f (zyxDen z y x) ↔ f = qrot (euler2quat .Z .Y .X z y x) := by
  have h := (C30_euler .Z .Y .X z y x).2.2.1
  rw [zyx_den]
  exact ⟨fun hf => hf.ext h, fun hf => hf ▸ h⟩

theorem exp_zero_dir (a : Ax) : exp ((0 / 2 : ℝ) • (dir a).pure) = 1 := by
  rw [zero_div, zero_smul, exp_zero]

/-! ## Conversions -/

theorem toQuat_means {o : Obj} {f : V3 → V3} (h : o.Means f) (hr : o.IsRot) :
    ∃ q, toQuat o = .ok q ∧ quatOf o = .ok q ∧ Unit q ∧ f = qrot q := by
  cases o with
  | num | list | tuple | pair => exact h.elim
  | zyx z y x => exact ⟨_, rfl, rfl, (C30_euler .Z .Y .X z y x).2.1, means_zyx.1 h⟩
  | rpy z y x => exact ⟨_, rfl, rfl, (C30_euler .Z .Y .X z y x).2.1, means_zyx.1 h⟩
  | val v =>
    cases v with
    | vec => exact h.elim
    | ang a t =>
      obtain ⟨-, h2, h3, -⟩ := C30_axis_angle a t
      exact ⟨_, rfl, rfl, h2, by rw [means_ang.1 h, h3, rot9_quat]⟩
    | quat q => exact ⟨_, rfl, rfl, means_quat.1 h⟩
    | rotmat R =>
      obtain ⟨h1, h2⟩ := means_rotmat.1 h
      have h3 := C25_rotmat2quat R h1
      exact ⟨_, rfl, rfl, h3.1, by rw [h2, ← rot9_quat, h3.2.1]⟩
    | axang a =>
      obtain ⟨h1, h2⟩ := means_axang.1 h
      exact ⟨_, rfl, rfl, (axang_facts h1).1, h2⟩
    | duqu | qutr | tfm => exact absurd hr (by simp [Obj.IsRot, Obj.Is, Cls.IsRot])

theorem ident_quat : quat2rotmat ⟨0, 0, 0, 1⟩ = m3ident := by
  ext <;> norm_num [quat2rotmat, skewsymScalC, Quat.vec, m3ident]

theorem unit_one : Tf.Unit ⟨0, 0, 0, 1⟩ := by norm_num [Tf.Unit]

theorem rotmatOf_means {o : Obj} {f : V3 → V3} (h : o.Means f) (hr : o.IsRot) :
    ∃ R, rotmatOf o = .ok R ∧ IsRot R ∧ f = rot9 R := by
  cases o with
  | num | list | tuple | pair => exact h.elim
  | zyx z y x =>
    obtain ⟨-, h2, -, -, h5⟩ := C30_euler .Z .Y .X z y x
    exact ⟨_, rfl, by rw [h5]; exact C24_isRot _ h2, by rw [means_zyx.1 h, h5, rot9_quat]⟩
  | rpy z y x =>
    obtain ⟨-, h2, -, -, h5⟩ := C30_euler .Z .Y .X z y x
    exact ⟨_, rfl, by rw [h5]; exact C24_isRot _ h2, by rw [means_zyx.1 h, h5, rot9_quat]⟩
  | val v =>
    cases v with
    | vec => exact h.elim
    | ang a t =>
      obtain ⟨-, h2, h3, -⟩ := C30_axis_angle a t
      exact ⟨_, rfl, by rw [h3]; exact C24_isRot _ h2, means_ang.1 h⟩
    | quat q =>
      obtain ⟨h1, h2⟩ := means_quat.1 h
      by_cases h0 : qssdOne q = 0
      · have hq : q = ⟨0, 0, 0, 1⟩ := by
          rw [qssdOne] at h0
          have a1 := sq_nonneg (q.x - 0)
          have a2 := sq_nonneg (q.y - 0)
          have a3 := sq_nonneg (q.z - 0)
          have a4 := sq_nonneg (q.w - 1)
          ext
          · have : (q.x - 0) ^ 2 = 0 := by linarith
            simpa using this
          · have : (q.y - 0) ^ 2 = 0 := by linarith
            simpa using this
          · have : (q.z - 0) ^ 2 = 0 := by linarith
            simpa using this
          · have : (q.w - 1) ^ 2 = 0 := by linarith
            have := pow_eq_zero_iff (two_ne_zero) |>.1 this
            simp; linarith
        refine ⟨m3ident, by simp [rotmatOf, h0], ?_, ?_⟩
        · rw [← ident_quat]; exact C24_isRot _ unit_one
        · rw [← ident_quat, rot9_quat, h2, hq]
      · exact ⟨quat2rotmat q, by simp [rotmatOf, h0, toRotmat], C24_isRot q h1, by rw [h2, rot9_quat]⟩
    | rotmat R => exact ⟨_, rfl, means_rotmat.1 h⟩
    | axang a =>
      obtain ⟨h1, h2⟩ := means_axang.1 h
      obtain ⟨h3, h4, h5⟩ := axang_facts h1
      have e : rot9 (rotmatExpAa a) = qrot (axang2quat a) := h5.ext h4
      refine ⟨_, rfl, ?_, by rw [h2, e]⟩
      rw [M3.ext_rot (A := rotmatExpAa a) (B := quat2rotmat (axang2quat a)) fun v => by
        rw [e, rot9_quat]]
      exact C24_isRot _ h3
    | duqu | qutr | tfm => exact absurd hr (by simp [Obj.IsRot, Obj.Is, Cls.IsRot])

theorem toAxang_means {o : Obj} {f : V3 → V3} (h : o.Means f) {a : Axang} (ha : axangOf o = .ok a)
    (hr : ∀ R, o = .val (.rotmat R) → 1 / 2 ^ 13 ≤ rotmatAngle R) : (Val.axang a).Means f := by
  cases o with
  | num | list | tuple | pair => exact h.elim
  | zyx | rpy => simp [axangOf, toAxang] at ha
  | val v =>
    cases v with
    | vec => exact h.elim
    | ang b t =>
      simp only [axangOf, toAxang, Except.ok.injEq] at ha
      subst ha
      have e : axang2quat (angle2axang b t) = angle2quat b t := (C30_axis_angle b t).1.symm
      obtain ⟨-, h2, h3, -⟩ := C30_axis_angle b t
      refine means_axang.2 ⟨Or.inl ?_, by rw [e, means_ang.1 h, h3, rot9_quat]⟩
      cases b <;> simp [angle2axang, vnorm, vdot]
    | axang b =>
      simp only [axangOf, toAxang, Except.ok.injEq] at ha
      exact ha ▸ h
    | quat q =>
      simp only [axangOf, toAxang, Except.ok.injEq] at ha
      subst ha
      obtain ⟨h1, h2⟩ := means_quat.1 h
      exact means_axang.2 ⟨quat2axang_ok h1, by rw [C30_quat_axang_quat q h1, h2]⟩
    | rotmat R =>
      obtain ⟨h1, h2⟩ := means_rotmat.1 h
      obtain ⟨b, e, hu, hb⟩ := C71_rotmat2axang_partial R h1 (hr R rfl)
      simp only [axangOf, toAxang, e, ofC, Except.ok.injEq] at ha
      subst ha
      exact ⟨Or.inl hu, h2 ▸ hb⟩
    | duqu | qutr | tfm => simp [axangOf, toAxang] at ha

theorem euler_means {o : Obj} {f : V3 → V3} (h : o.Means f) {r : Bool} {e : Eul} (he : eulerOf r o = .ok e)
    (hy : r = true → ∀ t, o ≠ .val (.ang .Y t)) : Rotates f (zyxDen e.z e.y e.x) := by
  cases o with
  | num | list | tuple | pair => exact h.elim
  | zyx | rpy => simp [eulerOf] at he
  | val v =>
    cases v with
    | vec => exact h.elim
    | quat | rotmat | axang | duqu | qutr | tfm => simp [eulerOf] at he
    | ang a t =>
      simp only [eulerOf, Except.ok.injEq] at he
      subst he
      have h' : Rotates f (exp ((t / 2) • (dir a).pure)) := h
      cases a with
      | X => cases r <;> simpa [angEuler, Eul.setX, Eul.setY, Eul.setZ, zyxDen] using h'
      | Z => cases r <;> simpa [angEuler, Eul.setX, Eul.setY, Eul.setZ, zyxDen] using h'
      | Y =>
        cases r with
        | false => simpa [angEuler, Eul.setX, Eul.setY, Eul.setZ, zyxDen] using h'
        | true => exact absurd rfl (hy rfl t)

/-! ## Poses -/

theorem vec3Of_vec (v : V3) : vec3Of (.val (.vec v)) = .ok v := rfl

/-- A rotation and a translation make a pose of each class. -/
theorem pair_means {r o : Obj} {f : V3 → V3} {v : V3} (h : r.Means f) (hr : r.IsRot) (hv : vec3Of o = .ok v) :
    (∃ T, tfmOf (.pair r o) = .ok T ∧ T.Valid ∧ ∀ p, (tfmTf T p).pure = (f p).pure + v.pure) ∧
    (∃ S, duquOf (.pair r o) = .ok S ∧ S.Valid ∧ ∀ p, (duquTf S p).pure = (f p).pure + v.pure) ∧
    ∃ E, qutrOf (.pair r o) = .ok E ∧ E.Valid ∧ ∀ p, (qutrTf E p).pure = (f p).pure + v.pure := by
  obtain ⟨q, -, hq, hu, hf⟩ := toQuat_means h hr
  obtain ⟨R, hR, hrot, hf'⟩ := rotmatOf_means h hr
  have key : ∀ p, (qutrTf ⟨q, v⟩ p).pure = (f p).pure + v.pure := by
    intro p
    rw [C26_actions.2.1 ⟨q, v⟩ _ hu, hf, (C23_qrot q p hu).1]
  refine ⟨⟨⟨R, v⟩, ?_, hrot, fun p => ?_⟩, ⟨qutr2duqu ⟨q, v⟩, ?_, (C26_conversions.1 ⟨q, v⟩ hu).1, fun p => ?_⟩,
    ⟨⟨q, v⟩, ?_, hu, key⟩⟩
  · simp [tfmOf, parts, hR, hv, bind, Except.bind, pure, Except.pure]
  · rw [hf']
    ext <;> simp [tfmTf, rot9] <;> ring
  · simp [duquOf, parts, hq, hv, bind, Except.bind, pure, Except.pure]
  · rw [C26_point.2.2.2 ⟨q, v⟩ p hu, key]
  · simp [qutrOf, parts, hq, hv, bind, Except.bind, pure, Except.pure]

/-- A pose is its rotation, which maps the points by `g`, followed by its translation. -/
theorem pose_parts {o : Obj} {f : V3 → V3} (h : o.Means f) (hp : ¬ o.IsRot) :
    ∃ r v g, rotation o = .ok r ∧ translation o = .ok v ∧ r.Means g ∧ r.IsRot ∧
      (∀ p, (f p).pure = (g p).pure + v.pure) ∧ tfmOf o = tfmOf (.pair r (.val (.vec v))) ∧
      duquOf o = duquOf (.pair r (.val (.vec v))) ∧ qutrOf o = qutrOf (.pair r (.val (.vec v))) := by
  cases o with
  | num | list | tuple | pair => exact h.elim
  | zyx | rpy => exact absurd ⟨_, rfl, trivial⟩ hp
  | val v =>
    cases v with
    | vec => exact h.elim
    | ang => exact absurd trivial hp
    | quat | rotmat | axang => exact absurd ⟨_, rfl, trivial⟩ hp
    | tfm T =>
      obtain ⟨h1, h2⟩ := means_tfm.1 h
      refine ⟨_, _, rot9 T.R, rfl, rfl, means_rotmat.2 ⟨h1, rfl⟩, ⟨_, rfl, trivial⟩, fun p => ?_, rfl, rfl, rfl⟩
      rw [h2]
      ext <;> simp [tfmTf, rot9] <;> ring
    | qutr E =>
      obtain ⟨h1, h2⟩ := means_qutr.1 h
      refine ⟨_, _, qrot E.q, rfl, rfl, means_quat.2 ⟨h1, rfl⟩, ⟨_, rfl, trivial⟩, fun p => ?_, rfl, rfl, rfl⟩
      rw [h2, C26_actions.2.1 E _ h1, (C23_qrot E.q p h1).1]
    | duqu S =>
      obtain ⟨h1, h2⟩ := means_duqu.1 h
      refine ⟨_, _, qrot S.real, rfl, rfl, means_quat.2 ⟨h1.1, rfl⟩, ⟨_, rfl, trivial⟩, fun p => ?_, rfl, rfl, rfl⟩
      rw [h2, C26_point.2.1 S _ h1, C26_actions.2.1 (duqu2qutr S) _ h1.1, (C23_qrot S.real p h1.1).1]
      rfl

theorem pure_fun {f g : V3 → V3} (h : ∀ p, (f p).pure = (g p).pure) : f = g :=
  funext fun p => V3.pure_inj (h p)

/-- A pose made from a pose stands for the same map. -/
theorem pose_conv {o : Obj} {f : V3 → V3} (h : o.Means f) (hp : ¬ o.IsRot) :
    (∃ T, tfmOf o = .ok T ∧ T.Valid ∧ f = tfmTf T) ∧ (∃ S, duquOf o = .ok S ∧ S.Valid ∧ f = duquTf S) ∧
    ∃ E, qutrOf o = .ok E ∧ E.Valid ∧ f = qutrTf E := by
  obtain ⟨r, v, g, -, -, hg, hr, hf, e1, e2, e3⟩ := pose_parts h hp
  obtain ⟨⟨T, a1, a2, a3⟩, ⟨S, b1, b2, b3⟩, ⟨E, c1, c2, c3⟩⟩ := pair_means hg hr (vec3Of_vec v)
  exact ⟨⟨T, e1.trans a1, a2, pure_fun fun p => (hf p).trans (a3 p).symm⟩,
    ⟨S, e2.trans b1, b2, pure_fun fun p => (hf p).trans (b3 p).symm⟩,
    ⟨E, e3.trans c1, c2, pure_fun fun p => (hf p).trans (c3 p).symm⟩⟩

/-! ## C123 -/

/-- **C123 (conversions).** If an object of a class can be made from a rotation or a pose, then it stands for
the same map of the points.  Missing from the property: `EulerRPY` of a `YAngle` (`C123_violates_rpy`),
`AxAng` of a rotation matrix with an angle below 2^-13, and that it can be made (`C123_total_partial`,
`C123_violates_euler`). -/
theorem C123_convert_partial (c : Cls) (o w : Obj) (f : V3 → V3) (h : o.Means f) (hw : new c o = .ok w)
    (hy : c = .rpy → ∀ t, o ≠ .val (.ang .Y t))
    (ha : c = .axang → ∀ R, o = .val (.rotmat R) → 1 / 2 ^ 13 ≤ rotmatAngle R) : w.Is c ∧ w.Means f := by
  have bad : ∀ {α : Type} {e : Exc} {g : α → Obj}, (Except.error e : Res α).map g ≠ .ok w := by
    intro α e g hc; cases hc
  by_cases hr : o.IsRot
  · have np : ∀ {α : Type} {g : Obj × Obj → Res α}, (parts o >>= g) = .error .attributeError := by
      intro α g
      cases o with
      | num | list | tuple | pair => exact h.elim
      | zyx | rpy => rfl
      | val v =>
        cases v with
        | vec => exact h.elim
        | ang | quat | rotmat | axang => rfl
        | duqu | qutr | tfm => exact absurd hr (by simp [Obj.IsRot, Obj.Is, Cls.IsRot])
    have nl : ∀ l, o ≠ .list l := by intro l e; subst e; exact h
    cases c with
    | quat =>
      obtain ⟨q, -, e, hu, hf⟩ := toQuat_means h hr
      simp only [new, e, Except.map, Except.ok.injEq] at hw
      exact hw ▸ ⟨rfl, means_quat.2 ⟨hu, hf⟩⟩
    | rotmat =>
      obtain ⟨R, e, hu, hf⟩ := rotmatOf_means h hr
      simp only [new, e, Except.map, Except.ok.injEq] at hw
      exact hw ▸ ⟨rfl, means_rotmat.2 ⟨hu, hf⟩⟩
    | axang =>
      cases e : axangOf o with
      | error => rw [new, e] at hw; exact absurd hw bad
      | ok a =>
        simp only [new, e, Except.map, Except.ok.injEq] at hw
        exact hw ▸ ⟨rfl, toAxang_means h e (ha rfl)⟩
    | zyx =>
      cases e : eulerOf false o with
      | error => rw [new, e] at hw; exact absurd hw bad
      | ok a =>
        simp only [new, e, Except.map, Except.ok.injEq] at hw
        exact hw ▸ ⟨rfl, euler_means h e (by simp)⟩
    | rpy =>
      cases e : eulerOf true o with
      | error => rw [new, e] at hw; exact absurd hw bad
      | ok a =>
        simp only [new, e, Except.map, Except.ok.injEq] at hw
        exact hw ▸ ⟨rfl, euler_means h e (fun _ => hy rfl)⟩
    | tfm =>
      rw [new, tfmOf, np] at hw; exact absurd hw bad
    | duqu =>
      rw [new, duquOf] at hw
      · rw [np] at hw; exact absurd hw bad
      all_goals (intros; exact nl _ ‹_›)
    | qutr =>
      rw [new, qutrOf] at hw
      · rw [np] at hw; exact absurd hw bad
      all_goals (intros; exact nl _ ‹_›)
  · obtain ⟨⟨T, a1, a2, a3⟩, ⟨S, b1, b2, b3⟩, ⟨E, c1, c2, c3⟩⟩ := pose_conv h hr
    have hx : quatOf o = .error .attributeError ∧ rotmatOf o = .error .attributeError ∧
        axangOf o = .error .attributeError ∧ ∀ r, eulerOf r o = .error .attributeError := by
      cases o with
      | num | list | tuple | pair => exact h.elim
      | zyx | rpy => exact absurd ⟨_, rfl, trivial⟩ hr
      | val v =>
        cases v with
        | vec => exact h.elim
        | ang => exact absurd trivial hr
        | quat | rotmat | axang => exact absurd ⟨_, rfl, trivial⟩ hr
        | tfm | qutr | duqu => exact ⟨rfl, rfl, rfl, fun _ => rfl⟩
    cases c with
    | quat => rw [new, hx.1] at hw; exact absurd hw bad
    | rotmat => rw [new, hx.2.1] at hw; exact absurd hw bad
    | axang => rw [new, hx.2.2.1] at hw; exact absurd hw bad
    | zyx => rw [new, hx.2.2.2] at hw; exact absurd hw bad
    | rpy => rw [new, hx.2.2.2] at hw; exact absurd hw bad
    | tfm =>
      simp only [new, a1, Except.map, Except.ok.injEq] at hw
      exact hw ▸ ⟨rfl, means_tfm.2 ⟨a2, a3⟩⟩
    | duqu =>
      simp only [new, b1, Except.map, Except.ok.injEq] at hw
      exact hw ▸ ⟨rfl, means_duqu.2 ⟨b2, b3⟩⟩
    | qutr =>
      simp only [new, c1, Except.map, Except.ok.injEq] at hw
      exact hw ▸ ⟨rfl, means_qutr.2 ⟨c2, c3⟩⟩

/-- **C123 (conversions that exist).** Every rotation can be made into a quaternion and into a matrix, every pose
into a pose of each class, every angle about an axis into a rotation of each class, and every quaternion into an
axis with an angle.  Missing from the property: `EulerZYX` and `EulerRPY` of anything but angles, and `AxAng`
of Euler angles (`C123_violates_euler`). -/
theorem C123_total_partial (o : Obj) (f : V3 → V3) (h : o.Means f) :
    (o.IsRot → ∀ c, c = .quat ∨ c = .rotmat → ∃ w, new c o = .ok w) ∧
    (¬ o.IsRot → ∀ c : Cls, ¬ c.IsRot → ∃ w, new c o = .ok w) ∧
    (∀ a t, o = .val (.ang a t) → ∀ c : Cls, c.IsRot → ∃ w, new c o = .ok w) ∧
    (∀ q, o = .val (.quat q) → ∃ w, new .axang o = .ok w) := by
  refine ⟨fun hr c hc => ?_, fun hr c hc => ?_, fun a t e c hc => ?_, fun q e => ?_⟩
  · rcases hc with rfl | rfl
    · obtain ⟨q, -, e, -⟩ := toQuat_means h hr
      exact ⟨_, by rw [new, e]; rfl⟩
    · obtain ⟨R, e, -⟩ := rotmatOf_means h hr
      exact ⟨_, by rw [new, e]; rfl⟩
  · obtain ⟨⟨T, a1, -⟩, ⟨S, b1, -⟩, ⟨E, c1, -⟩⟩ := pose_conv h hr
    cases c with
    | quat | rotmat | axang | zyx | rpy => exact absurd trivial hc
    | tfm => exact ⟨_, by rw [new, a1]; rfl⟩
    | duqu => exact ⟨_, by rw [new, b1]; rfl⟩
    | qutr => exact ⟨_, by rw [new, c1]; rfl⟩
  · subst e
    cases c with
    | quat | rotmat | axang | zyx | rpy => exact ⟨_, rfl⟩
    | tfm | duqu | qutr => exact hc.elim
  · subst e; exact ⟨_, rfl⟩

/-- **C123 (rotation and translation).** Each class of poses can be made from a tuple of a rotation and a vector,
and the pose rotates first and then translates. -/
theorem C123_pair (c : Cls) (hc : ¬ c.IsRot) (r o : Obj) (v : V3) (f : V3 → V3) (h : r.Means f) (hr : r.IsRot)
    (hv : vec3Of o = .ok v) :
    ∃ w g, new c (.pair r o) = .ok w ∧ w.Is c ∧ w.Means g ∧ ∀ p, (g p).pure = (f p).pure + v.pure := by
  obtain ⟨⟨T, a1, a2, a3⟩, ⟨S, b1, b2, b3⟩, ⟨E, c1, c2, c3⟩⟩ := pair_means h hr hv
  cases c with
  | quat | rotmat | axang | zyx | rpy => exact absurd trivial hc
  | tfm => exact ⟨.val (.tfm T), _, by rw [new, a1]; rfl, rfl, means_tfm.2 ⟨a2, rfl⟩, a3⟩
  | duqu => exact ⟨.val (.duqu S), _, by rw [new, b1]; rfl, rfl, means_duqu.2 ⟨b2, rfl⟩, b3⟩
  | qutr => exact ⟨.val (.qutr E), _, by rw [new, c1]; rfl, rfl, means_qutr.2 ⟨c2, rfl⟩, c3⟩

/-- **C123 (no argument).** An object made without an argument leaves the points where they are. -/
theorem C123_default (c : Cls) : (new0 c).Is c ∧ (new0 c).Means id := by
  have hi : IsRot m3ident := by rw [← ident_quat]; exact C24_isRot _ unit_one
  have hz : zyxDen 0 0 0 = 1 := by simp [zyxDen]
  refine ⟨by cases c <;> rfl, ?_⟩
  cases c with
  | quat =>
    refine means_quat.2 ⟨unit_one, funext fun p => ?_⟩
    rw [← rot9_quat, ident_quat]
    ext <;> simp [rot9, m3ident]
  | rotmat =>
    refine means_rotmat.2 ⟨hi, funext fun p => ?_⟩
    ext <;> simp [rot9, m3ident]
  | axang =>
    refine ⟨Or.inl (by simp [vnorm, vdot]), fun p => ?_⟩
    simp [zero_div]
  | zyx => intro p; rw [hz]; simp
  | rpy => intro p; rw [hz]; simp
  | tfm =>
    refine means_tfm.2 ⟨hi, funext fun p => ?_⟩
    ext <;> simp [tfmTf, m3ident]
  | duqu =>
    refine means_duqu.2 ⟨by norm_num [Duqu.Valid, Tf.Unit, qdot], funext fun p => ?_⟩
    ext <;> simp [duquTf, qmulQV, qmulcV, mkq, qmulQVv, vdot, Quat.vec]
  | qutr =>
    refine means_qutr.2 ⟨unit_one, funext fun p => ?_⟩
    rw [← C26_point.1]
    ext <;> simp [qutr2tfmat, ident_quat, tfmTf, m3ident]

theorem mul_quat {a b : Quat} (ha : Tf.Unit a) (hb : Tf.Unit b) :
    (Obj.val (.quat (qmul a b))).Means (qrot a ∘ qrot b) :=
  means_quat.2 ⟨(C21_qmulnorm a b ha hb).2, funext fun p => (C23_compose a b p ha hb).symm⟩

/-- **C123 (products).** A product of rotations or poses first applies the right one and then the left one. -/
theorem C123_mul (a b c : Obj) (f g : V3 → V3) (hf : a.Means f) (hg : b.Means g) (h : mul a b = .ok c) :
    c.Means (f ∘ g) := by
  have bad : ∀ {α : Type} {e : Exc} {g : α → Obj}, (Except.error e : Res α).map g ≠ .ok c := by
    intro α e g hc; cases hc
  -- a quaternion on the left
  have left : ∀ q : Quat, a = .val (.quat q) → c.Means (f ∘ g) := by
    rintro q rfl
    obtain ⟨h1, h2⟩ := means_quat.1 hf
    have h' : (quatOf b).map (fun p => Obj.val (.quat (qmul q p))) = .ok c := by
      cases b with
      | num => exact hg.elim
      | _ => exact h
    by_cases hb : b.IsRot
    · obtain ⟨p, -, e, hu, hp⟩ := toQuat_means hg hb
      simp only [e, Except.map, Except.ok.injEq] at h'
      rw [← h', h2, hp]; exact mul_quat h1 hu
    · obtain ⟨r, v, g', e, -⟩ := pose_parts hg hb
      have : quatOf b = .error .attributeError := by
        cases b with
        | val v => cases v <;> first | rfl | (simp [rotation] at e)
        | _ => simp [rotation] at e
      rw [this] at h'; exact absurd h' bad
  -- a quaternion on the right of a rotation of a class without products
  have right : ∀ q : Quat, b = .val (.quat q) → a.IsRot → (∀ R, a ≠ .val (.rotmat R)) → c.Means (f ∘ g) := by
    rintro q rfl ha hR
    obtain ⟨h1, h2⟩ := means_quat.1 hg
    obtain ⟨p, -, e, hu, hp⟩ := toQuat_means hf ha
    have h' : (quatOf a).map (fun p => Obj.val (.quat (qmul p q))) = .ok c := by
      cases a with
      | num | list | tuple | pair => exact hf.elim
      | zyx | rpy => exact h
      | val v =>
        cases v with
        | vec => exact hf.elim
        | rotmat R => exact absurd rfl (hR R)
        | duqu | qutr | tfm => exact absurd ha (by simp [Obj.IsRot, Obj.Is, Cls.IsRot])
        | _ => exact h
    simp only [e, Except.map, Except.ok.injEq] at h'
    rw [← h', h2, hp]; exact mul_quat hu h1
  cases a with
  | num | list | tuple | pair => exact hf.elim
  | zyx z y x =>
    cases b with
    | val v =>
      cases v with
      | quat q => exact right q rfl ⟨_, rfl, trivial⟩ (by simp)
      | _ => cases h
    | _ => cases h
  | rpy z y x =>
    cases b with
    | val v =>
      cases v with
      | quat q => exact right q rfl ⟨_, rfl, trivial⟩ (by simp)
      | _ => cases h
    | _ => cases h
  | val v =>
    cases v with
    | vec => exact hf.elim
    | quat q => exact left q rfl
    | ang a t =>
      cases b with
      | val v =>
        cases v with
        | quat q => exact right q rfl trivial (by simp)
        | _ => cases h
      | _ => cases h
    | axang a =>
      cases b with
      | val v =>
        cases v with
        | quat q => exact right q rfl ⟨_, rfl, trivial⟩ (by simp)
        | _ => cases h
      | _ => cases h
    | rotmat R =>
      have h' : (rotmatOf b).map (fun S => Obj.val (.rotmat (mul9 R S))) = .ok c := h
      obtain ⟨h1, h2⟩ := means_rotmat.1 hf
      by_cases hb : b.IsRot
      · obtain ⟨S, e, hu, hp⟩ := rotmatOf_means hg hb
        simp only [e, Except.map, Except.ok.injEq] at h'
        rw [← h', h2, hp]
        exact Cpp.C102_mul _ _ _ (.rotmat R S) _ _ (means_rotmat.2 ⟨h1, rfl⟩) (means_rotmat.2 ⟨hu, rfl⟩)
      · obtain ⟨r, v, g', e, -⟩ := pose_parts hg hb
        have : rotmatOf b = .error .attributeError := by
          cases b with
          | val v => cases v <;> first | rfl | (simp [rotation] at e)
          | _ => simp [rotation] at e
        rw [this] at h'; exact absurd h' bad
    | tfm A =>
      cases b with
      | val v =>
        cases v with
        | tfm B =>
          simp only [mul, Except.ok.injEq] at h
          exact h ▸ Cpp.C102_mul _ _ _ (.tfm A B) _ _ hf hg
        | _ => cases h
      | _ => cases h
    | duqu A =>
      cases b with
      | val v =>
        cases v with
        | duqu B =>
          simp only [mul, Except.ok.injEq] at h
          exact h ▸ Cpp.C102_mul _ _ _ (.duqu A B) _ _ hf hg
        | _ => cases h
      | _ => cases h
    | qutr A =>
      cases b with
      | val v =>
        cases v with
        | qutr B =>
          simp only [mul, Except.ok.injEq] at h
          exact h ▸ Cpp.C102_mul _ _ _ (.qutr A B) _ _ hf hg
        | _ => cases h
      | _ => cases h

/-- **C123 (applying).** `rotate` and `transform` return the image of the point. -/
theorem C123_apply (a p : Obj) (f : V3 → V3) (v : V3) (hf : a.Means f) (hv : vec3Of p = .ok v) (q : V3)
    (h : apply a p = .ok q) : q = f v := by
  rw [apply, hv] at h
  cases a with
  | num | list | tuple | pair => exact hf.elim
  | zyx | rpy => cases h
  | val w =>
    cases w with
    | vec => exact hf.elim
    | ang => cases h
    | quat r => rw [(means_quat.1 hf).2]; exact (Except.ok.inj h).symm
    | rotmat R => rw [(means_rotmat.1 hf).2]; exact (Except.ok.inj h).symm
    | tfm T => rw [(means_tfm.1 hf).2]; exact (Except.ok.inj h).symm
    | duqu S => rw [(means_duqu.1 hf).2]; exact (Except.ok.inj h).symm
    | qutr E => rw [(means_qutr.1 hf).2]; exact (Except.ok.inj h).symm
    | axang a =>
      obtain ⟨h1, h2⟩ := hf
      rw [← Except.ok.inj h]
      rcases h1 with h1 | ⟨h1, k, hk⟩
      · exact congrFun ((C30_axang a h1).1.ext h2) v
      · have h3 : f v = v := by
          have := h2 v
          rw [h1] at this
          have hz : (⟨0, 0, 0⟩ : V3).pure = 0 := by ext <;> simp
          rw [hz, smul_zero, exp_zero] at this
          exact V3.pure_inj (by simpa using this)
        have hc : Real.cos a.angle = 1 := by rw [hk]; exact Real.cos_int_mul_two_pi k
        rw [h3]
        ext <;> simp [axangRot, h1, hc, cross]

theorem inv_of_mul {f g : V3 → V3} (h1 : f ∘ g = id) (h2 : g ∘ f = id) :
    (∀ p, g (f p) = p) ∧ ∀ p, f (g p) = p :=
  ⟨fun p => congrFun h2 p, fun p => congrFun h1 p⟩

theorem qrot_one : qrot ⟨0, 0, 0, 1⟩ = id := (means_quat.1 (C123_default .quat).2).2.symm

/-- **C123 (inverses).** The inverse exists for every object of a class that is not one of Euler angles, and
stands for the inverse map. -/
theorem C123_inv (a : Obj) (f : V3 → V3) (hf : a.Means f)
    (hc : ∃ c, a.Is c ∧ c ≠ .zyx ∧ c ≠ .rpy) :
    ∃ b g, inv a = .ok b ∧ (∃ c, a.Is c ∧ b.Is c) ∧ b.Means g ∧ (∀ p, g (f p) = p) ∧ ∀ p, f (g p) = p := by
  obtain ⟨c, hc, h1, h2⟩ := hc
  cases a with
  | num | list | tuple | pair => exact hf.elim
  | zyx => exact absurd hc h1
  | rpy => exact absurd hc h2
  | val w =>
    cases w with
    | vec => exact hf.elim
    | ang => exact hc.elim
    | quat q =>
      obtain ⟨hu, e⟩ := means_quat.1 hf
      have hq : qdot q q = 1 := by rw [Tf.Unit] at hu; rw [qdot]; linarith
      have hi : Tf.Unit (qinv q) := by
        rw [Tf.Unit] at *
        simp only [qinv, qconj, hq]
        linarith
      have hn : qnorm q ≠ 0 := by rw [qnorm, hq]; simp
      have hm : qmul q (qinv q) = ⟨0, 0, 0, 1⟩ ∧ qmul (qinv q) q = ⟨0, 0, 0, 1⟩ := by
        have hd : q.den ≠ 0 := by
          intro h0
          have := (Unit.iff_norm q).1 hu
          rw [h0] at this; simp at this
        have h1 : (⟨0, 0, 0, 1⟩ : Quat).den = 1 := by ext <;> simp
        constructor
        · apply Quat.den_inj; rw [C21_qmul, C21_qinv, h1, mul_inv_cancel₀ hd]
        · apply Quat.den_inj; rw [C21_qmul, C21_qinv, h1, inv_mul_cancel₀ hd]
      refine ⟨.val (.quat (qinv q)), qrot (qinv q), by simp [inv, hq], ⟨_, rfl, rfl⟩, means_quat.2 ⟨hi, rfl⟩, ?_⟩
      rw [e]
      apply inv_of_mul
      · funext p; rw [Function.comp, ← C23_compose _ _ _ hu hi, hm.1, qrot_one]
      · funext p; rw [Function.comp, ← C23_compose _ _ _ hi hu, hm.2, qrot_one]
    | axang a =>
      obtain ⟨h1, h2⟩ := hf
      have ok : AxangOk ⟨a.axis, -a.angle⟩ := by
        rcases h1 with h | ⟨h, k, hk⟩
        · exact Or.inl h
        · exact Or.inr ⟨h, -k, by simp only [hk]; push_cast; ring⟩
      have hg := (means_axang.2 ⟨ok, rfl⟩ : (Val.axang ⟨a.axis, -a.angle⟩).Means _)
      refine ⟨.val (.axang ⟨a.axis, -a.angle⟩), _, rfl, ⟨_, rfl, rfl⟩, hg, ?_⟩
      have he : (exp ((-a.angle / 2) • a.axis.pure) : ℍ[ℝ]) = star (exp ((a.angle / 2) • a.axis.pure)) := by
        rw [star_exp]
        congr 1
        have : star a.axis.pure = -a.axis.pure := by ext <;> simp
        rw [Quaternion.star_smul, this]
        ext <;> simp <;> ring
      have hn : ‖(exp ((a.angle / 2) • a.axis.pure) : ℍ[ℝ])‖ = 1 := by
        rw [Quaternion.norm_exp]; simp
      have hs : ∀ q : ℍ[ℝ], ‖q‖ = 1 → q * star q = 1 ∧ star q * q = 1 := by
        intro q hq
        have : normSq q = 1 := by rw [Quaternion.normSq_eq_norm_mul_self, hq]; norm_num
        rw [Quaternion.self_mul_star, Quaternion.star_mul_self, this]; simp
      obtain ⟨m1, m2⟩ := hs _ hn
      have r1 := h2
      have r2 := hg.2
      simp only at r2
      rw [he] at r2
      generalize exp ((a.angle / 2) • a.axis.pure) = E at *
      constructor
      · intro p
        apply V3.pure_inj
        rw [r2, r1, star_star]
        calc star E * (E * p.pure * star E) * E = (star E * E) * p.pure * (star E * E) := by noncomm_ring
          _ = p.pure := by rw [m2]; simp
      · intro p
        apply V3.pure_inj
        rw [r1, r2, star_star]
        calc E * (star E * p.pure * E) * star E = (E * star E) * p.pure * (E * star E) := by noncomm_ring
          _ = p.pure := by rw [m1]; simp
    | rotmat R =>
      obtain ⟨h1, e⟩ := means_rotmat.1 hf
      have ho := (Matrix.mem_orthogonalGroup_iff _ _).1 (Matrix.mem_specialOrthogonalGroup_iff.1 h1).1
      have ho' := (Matrix.mem_orthogonalGroup_iff' _ _).1 (Matrix.mem_specialOrthogonalGroup_iff.1 h1).1
      have hd := (Matrix.mem_specialOrthogonalGroup_iff.1 h1).2
      have ht := (C24_matrix_ops R m3ident ⟨0, 0, 0⟩).2.2
      have hr : IsRot (transp R) := by
        rw [IsRot, Matrix.mem_specialOrthogonalGroup_iff, Matrix.mem_orthogonalGroup_iff, ht]
        refine ⟨?_, by rw [Matrix.det_transpose, hd]⟩
        rw [Matrix.transpose_transpose]; exact ho'
      refine ⟨.val (.rotmat (transp R)), _, rfl, ⟨_, rfl, rfl⟩, means_rotmat.2 ⟨hr, rfl⟩, ?_⟩
      rw [e]
      constructor
      · intro p
        apply V3.den_inj
        rw [(C24_matrix_ops _ m3ident _).1, (C24_matrix_ops _ m3ident _).1, ht, Matrix.mulVec_mulVec]
        rw [ho', Matrix.one_mulVec]
      · intro p
        apply V3.den_inj
        rw [(C24_matrix_ops _ m3ident _).1, (C24_matrix_ops _ m3ident _).1, ht, Matrix.mulVec_mulVec]
        rw [ho, Matrix.one_mulVec]
    | tfm T =>
      obtain ⟨h1, e⟩ := means_tfm.1 hf
      obtain ⟨-, -, -, h4, h5⟩ := C27_tfm T T T
      have hi : tfmTf tfmident = id := (means_tfm.1 (C123_default .tfm).2).2.symm
      refine ⟨.val (.tfm (tfmInv T)), _, rfl, ⟨_, rfl, rfl⟩, means_tfm.2 ⟨(h5 h1 h1).2, rfl⟩, ?_⟩
      rw [e]
      apply inv_of_mul
      · funext p; rw [Function.comp, ← tfm_comp, (h4 h1).1, hi]
      · funext p; rw [Function.comp, ← tfm_comp, (h4 h1).2, hi]
    | duqu S =>
      obtain ⟨h1, e⟩ := means_duqu.1 hf
      obtain ⟨-, -, -, h4, -⟩ := C27_duqu S S S
      have hv := (C26_duqu S S h1 h1).2.1
      have hi : duquTf duquident = id := (means_duqu.1 (C123_default .duqu).2).2.symm
      refine ⟨.val (.duqu (duquConj S)), _, rfl, ⟨_, rfl, rfl⟩, means_duqu.2 ⟨hv, rfl⟩, ?_⟩
      rw [e]
      apply inv_of_mul
      · funext p; rw [Function.comp, ← duqu_comp _ _ h1 hv, (h4 h1).1, hi]
      · funext p; rw [Function.comp, ← duqu_comp _ _ hv h1, (h4 h1).2, hi]
    | qutr E =>
      obtain ⟨h1, e⟩ := means_qutr.1 hf
      obtain ⟨-, -, -, h4, h5, -, h7⟩ := C27_qutr E E E h1 h1
      have hi : qutrTf qutrident = id := (means_qutr.1 (C123_default .qutr).2).2.symm
      refine ⟨.val (.qutr (qutrConj E)), _, rfl, ⟨_, rfl, rfl⟩, means_qutr.2 ⟨h7, rfl⟩, ?_⟩
      rw [e]
      apply inv_of_mul
      · funext p; rw [Function.comp, ← qutr_comp _ _ h1 h7, h4, hi]
      · funext p; rw [Function.comp, ← qutr_comp _ _ h7 h1, h5, hi]

/-- **C123 (parts).** The rotation and the translation of a pose are those of its map; setting one of them keeps
the other: after `a.rotation = r` the pose rotates as `r` and then translates as before, and after
`a.translation = v` it rotates as before and then translates by `v`. -/
theorem C123_parts (a : Obj) (f : V3 → V3) (hf : a.Means f) (hp : ¬ a.IsRot) :
    (∃ r v g, rotation a = .ok r ∧ translation a = .ok v ∧ r.Means g ∧ v = f ⟨0, 0, 0⟩ ∧
      (∀ p, (f p).pure = (g p).pure + v.pure)) ∧
    (∀ r g, r.Means g → r.IsRot → ∃ b h, setRotation a r = .ok b ∧ (∃ c, a.Is c ∧ b.Is c) ∧ b.Means h ∧
      ∀ p, (h p).pure = (g p).pure + (f ⟨0, 0, 0⟩).pure) ∧
    ∀ o v, vec3Of o = .ok v → ∃ b h, setTranslation a o = .ok b ∧ (∃ c, a.Is c ∧ b.Is c) ∧ b.Means h ∧
      ∀ p, (h p).pure = (f p).pure - (f ⟨0, 0, 0⟩).pure + v.pure := by
  obtain ⟨r, v, g, e1, e2, hg, hr, h, -⟩ := pose_parts hf hp
  have g0 : (g ⟨0, 0, 0⟩).pure = 0 := by
    obtain ⟨q, -, -, hu, hq⟩ := toQuat_means hg hr
    have hz : (⟨0, 0, 0⟩ : V3).pure = 0 := by ext <;> simp
    rw [hq, (C23_qrot q _ hu).1, hz]; simp
  have hv : v.pure = (f ⟨0, 0, 0⟩).pure := by rw [h, g0, zero_add]
  have hv' : v = f ⟨0, 0, 0⟩ := V3.pure_inj hv
  refine ⟨⟨r, v, g, e1, e2, hg, hv', h⟩, fun r' g' hg' hr' => ?_, fun o u hu => ?_⟩
  · obtain ⟨⟨T, a1, a2, a3⟩, ⟨S, b1, b2, b3⟩, ⟨E, c1, c2, c3⟩⟩ := pair_means hg' hr' (vec3Of_vec v)
    obtain ⟨q, -, hq, -⟩ := toQuat_means hg' hr'
    obtain ⟨R, hR, -⟩ := rotmatOf_means hg' hr'
    simp only [tfmOf, duquOf, qutrOf, parts, vec3Of_vec, hq, hR, bind, Except.bind, pure, Except.pure,
      Except.ok.injEq] at a1 b1 c1
    rw [← hv]
    cases a with
    | val w =>
      cases w with
      | tfm T' =>
        simp only [translation, Except.ok.injEq] at e2
        exact ⟨.val (.tfm T), tfmTf T, by rw [← a1, ← e2]; simp [setRotation, hR, Except.map], ⟨_, rfl, rfl⟩,
          means_tfm.2 ⟨a2, rfl⟩, a3⟩
      | duqu S' =>
        simp only [translation, Except.ok.injEq] at e2
        exact ⟨.val (.duqu S), duquTf S, by rw [← b1, ← e2]; simp [setRotation, hq, Except.map], ⟨_, rfl, rfl⟩,
          means_duqu.2 ⟨b2, rfl⟩, b3⟩
      | qutr E' =>
        simp only [translation, Except.ok.injEq] at e2
        exact ⟨.val (.qutr E), qutrTf E, by rw [← c1, ← e2]; simp [setRotation, hq, Except.map], ⟨_, rfl, rfl⟩,
          means_qutr.2 ⟨c2, rfl⟩, c3⟩
      | _ => cases e2
    | _ => cases e2
  · obtain ⟨⟨T, a1, a2, a3⟩, ⟨S, b1, b2, b3⟩, ⟨E, c1, c2, c3⟩⟩ := pair_means hg hr (vec3Of_vec u)
    have hh : ∀ p, (f p).pure - (f ⟨0, 0, 0⟩).pure + u.pure = (g p).pure + u.pure := by
      intro p; rw [h p, ← hv]; abel
    cases a with
    | val w =>
      cases w with
      | tfm T' =>
        simp only [rotation, Except.ok.injEq] at e1
        subst e1
        have : (⟨T'.R, u⟩ : Tfm) = T := Except.ok.inj a1
        exact ⟨.val (.tfm T), tfmTf T, by simp [setTranslation, hu, Except.map, this], ⟨_, rfl, rfl⟩,
          means_tfm.2 ⟨a2, rfl⟩, fun p => by rw [a3, hh]⟩
      | duqu S' =>
        simp only [rotation, Except.ok.injEq] at e1
        subst e1
        have : qutr2duqu ⟨S'.real, u⟩ = S := Except.ok.inj b1
        exact ⟨.val (.duqu S), duquTf S, by simp [setTranslation, hu, Except.map, this], ⟨_, rfl, rfl⟩,
          means_duqu.2 ⟨b2, rfl⟩, fun p => by rw [b3, hh]⟩
      | qutr E' =>
        simp only [rotation, Except.ok.injEq] at e1
        subst e1
        have : (⟨E'.q, u⟩ : Qutr) = E := Except.ok.inj c1
        exact ⟨.val (.qutr E), qutrTf E, by simp [setTranslation, hu, Except.map, this], ⟨_, rfl, rfl⟩,
          means_qutr.2 ⟨c2, rfl⟩, fun p => by rw [c3, hh]⟩
      | _ => cases e2
    | _ => cases e2

/-- **C123 (numbers).** A list of three numbers is the angles about z, y and x for `EulerZYX`, and roll, pitch and
yaw, about x, y and z, for `EulerRPY`; a list of an axis that is not zero and an angle is for `AxAng` the rotation
by that angle about the axis scaled to length one; a list of four numbers is the quaternion, of seven or eight
numbers the pose, with these elements. -/
theorem C123_numbers (a b c d : ℝ) :
    (∀ f, Rotates f (zyxDen a b c) → ∃ w, new .zyx (.list [a, b, c]) = .ok w ∧ w.Means f) ∧
    (∀ f, Rotates f (zyxDen c b a) → ∃ w, new .rpy (.list [a, b, c]) = .ok w ∧ w.Means f) ∧
    (vnorm ⟨a, b, c⟩ ≠ 0 → ∀ f, Rotates f (exp ((d / 2) • (vnorm ⟨a, b, c⟩)⁻¹ • (⟨a, b, c⟩ : V3).pure)) →
      ∃ w, new .axang (.list [a, b, c, d]) = .ok w ∧ w.Means f) ∧
    new .quat (.list [a, b, c, d]) = .ok (.val (.quat ⟨a, b, c, d⟩)) ∧
    ∀ x y z w, new .qutr (.list [a, b, c, d, x, y, z]) = .ok (.val (.qutr ⟨⟨a, b, c, d⟩, ⟨x, y, z⟩⟩)) ∧
      new .duqu (.list [a, b, c, d, x, y, z, w]) = .ok (.val (.duqu ⟨⟨a, b, c, d⟩, ⟨x, y, z, w⟩⟩)) := by
  refine ⟨fun f h => ⟨_, rfl, h⟩, fun f h => ⟨_, rfl, h⟩, fun hn f h => ?_, rfl, fun _ _ _ _ => ⟨rfl, rfl⟩⟩
  obtain ⟨g, e, h1, -, -, h4⟩ := C30_axang_normalize ⟨⟨a, b, c⟩, d⟩ hn
  refine ⟨.val (.axang g), by simp [new, axangOf, e, ofC, Except.map], Or.inl h1, ?_⟩
  have hu : vnorm (vnormalize ⟨a, b, c⟩) = 1 := by
    have hs := vnorm_sq (⟨a, b, c⟩ : V3)
    have h2 : vnorm (vnormalize ⟨a, b, c⟩) * vnorm (vnormalize ⟨a, b, c⟩) = 1 := by
      have e : Real.sqrt (vdot ⟨a, b, c⟩ ⟨a, b, c⟩) = vnorm ⟨a, b, c⟩ := rfl
      rw [vnorm_sq]
      simp only [vnormalize, e]
      simp only [vdot] at *
      field_simp
      linarith
    have h3 : 0 ≤ vnorm (vnormalize ⟨a, b, c⟩) := Real.sqrt_nonneg _
    nlinarith
  have r1 := (C30_axang g h1).1
  have r2 := (C30_axang ⟨vnormalize ⟨a, b, c⟩, d⟩ hu).1
  rw [h4] at r1
  have hp : (vnormalize ⟨a, b, c⟩).pure = (vnorm ⟨a, b, c⟩)⁻¹ • (⟨a, b, c⟩ : V3).pure := by
    have e : Real.sqrt (vdot ⟨a, b, c⟩ ⟨a, b, c⟩) = vnorm ⟨a, b, c⟩ := rfl
    ext <;> simp [vnormalize, div_eq_inv_mul, e]
  rw [Axang.den, hp] at r2
  rw [h.ext r2]; exact r1

/-- **C123 fails** for `EulerRPY` of a `YAngle`: `y` of roll, pitch and yaw is the yaw, so that the pitch is never
set and the result is the identity for every angle; for a right angle the point (0, 0, 1) goes to (1, 0, 0) by the
original and stays by the result. -/
theorem C123_violates_rpy :
    (∀ t, new .rpy (.val (.ang .Y t)) = .ok (.rpy 0 0 0)) ∧ (Obj.rpy 0 0 0).Means id ∧
    ∃ f, (Obj.val (.ang .Y (Real.pi / 2))).Means f ∧ f ⟨0, 0, 1⟩ = ⟨1, 0, 0⟩ := by
  refine ⟨fun t => rfl, (C123_default .rpy).2, _, means_ang.2 rfl, ?_⟩
  ext <;> simp [rot9, angle2rotmat]

/-- **C123 fails** for Euler angles: they cannot be made from a quaternion, a matrix, an axis with an angle or
other Euler angles, and no axis with an angle can be made from them, whatever the rotation. -/
theorem C123_violates_euler (q : Quat) (R : M3) (a : Axang) (z y x : ℝ) (c : Cls) (hc : c = .zyx ∨ c = .rpy) :
    new c (.val (.quat q)) = .error .typeError ∧ new c (.val (.rotmat R)) = .error .attributeError ∧
    new c (.val (.axang a)) = .error .attributeError ∧ new c (.zyx z y x) = .error .attributeError ∧
    new c (.rpy z y x) = .error .attributeError ∧ new .axang (.zyx z y x) = .error .attributeError ∧
    new .axang (.rpy z y x) = .error .attributeError := by
  rcases hc with rfl | rfl <;> exact ⟨rfl, rfl, rfl, rfl, rfl, rfl, rfl⟩

/-- Roll, pitch and yaw (0, 0, π/2) as a quaternion turn the point (1, 0, 0) into (0, 1, 0). -/
example : ∃ w f, new .rpy (.list [0, 0, Real.pi / 2]) = .ok w ∧ w.Means f ∧ f ⟨1, 0, 0⟩ = ⟨0, 1, 0⟩ := by
  obtain ⟨w, e, h⟩ := (C123_numbers 0 0 (Real.pi / 2) 0).2.1 _ (means_zyx.2 rfl)
  refine ⟨w, _, e, h, ?_⟩
  rw [← rot9_quat, ← (C30_euler .Z .Y .X (Real.pi / 2) 0 0).2.2.2.2]
  ext <;> simp [euler2rotmat, rot9, angle2rotmat, mul9]

/-- A pose with a quarter turn about z and the translation (1, 2, 3), as a dual quaternion and then as a matrix. -/
example : ∃ w, new .tfm (.val (.duqu (qutr2duqu ⟨angle2quat .Z (Real.pi / 2), ⟨1, 2, 3⟩⟩))) = .ok w ∧ w.Is .tfm := by
  have hu := (C30_axis_angle .Z (Real.pi / 2)).2.1
  have hm : (Obj.val (.duqu (qutr2duqu ⟨angle2quat .Z (Real.pi / 2), ⟨1, 2, 3⟩⟩))).Means _ :=
    means_duqu.2 ⟨(C26_conversions.1 ⟨angle2quat .Z (Real.pi / 2), ⟨1, 2, 3⟩⟩ hu).1, rfl⟩
  obtain ⟨w, e⟩ := (C123_total_partial _ _ hm).2.1 (by simp [Obj.IsRot, Obj.Is, Cls.IsRot]) .tfm (by simp [Cls.IsRot])
  exact ⟨w, e, (C123_convert_partial .tfm _ w _ hm e (by simp) (by simp)).1⟩

end Verif.Py
