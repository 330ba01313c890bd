import Verif.Model.SdlCam
import Verif.Prop.GlCam
import Mathlib.Tactic.Ring
import Mathlib.Tactic.LinearCombination

/-! C108: keyboard and mouse move the camera as an orbit, a pan or a roll. -/

namespace Verif.SdlCam

open Verif.Tf
open Verif.Gl hiding View
open Matrix

/-- Rotation by `t` about the vertical axis. -/
noncomputable def rotZ (t : ℝ) (p : V3) : V3 :=
  ⟨Real.cos t * p.x - Real.sin t * p.y, Real.sin t * p.x + Real.cos t * p.y, p.z⟩

/-- Rotation by `t` about the first axis. -/
noncomputable def rotX (t : ℝ) (p : V3) : V3 :=
  ⟨p.x, Real.cos t * p.y - Real.sin t * p.z, Real.sin t * p.y + Real.cos t * p.z⟩

def sub (p q : V3) : V3 := ⟨p.x - q.x, p.y - q.y, p.z - q.z⟩

/-- What an event does to the camera: turn by `tilt` about the horizontal axis of
the picture and by `pan` about the vertical axis of the world; move along the axes
of the camera; turn the picture; go home; nothing. -/
inductive Effect where
  | orbit (tilt pan : ℝ)
  | slide (v : V3)
  | roll (t : ℝ)
  | home
  | stay

/-- The table of keys and mouse actions. -/
noncomputable def effect (V : View) (m : Mods) : Ev → Effect
  | .key .kp8 => if m.ctrl then .slide ⟨0, V.scrollRatio, 0⟩ else .orbit V.angleRatio 0
  | .key .kp2 => if m.ctrl then .slide ⟨0, -V.scrollRatio, 0⟩ else .orbit (-V.angleRatio) 0
  | .key .kp6 => if m.ctrl then .slide ⟨V.scrollRatio, 0, 0⟩ else .orbit 0 V.angleRatio
  | .key .kp4 => if m.ctrl then .slide ⟨-V.scrollRatio, 0, 0⟩ else .orbit 0 (-V.angleRatio)
  | .key .plus => .slide ⟨0, 0, -V.scrollRatio⟩
  | .key .minus => .slide ⟨0, 0, V.scrollRatio⟩
  | .key .home => .home
  | .motion x y true _ =>
      .orbit (-(V.angleRatio * (y - V.mouseY) / 10)) (-(V.angleRatio * (x - V.mouseX) / 10))
  | .motion x y false true =>
      .slide ⟨-(V.scrollRatio * (x - V.mouseX) / 10), V.scrollRatio * (y - V.mouseY) / 10, 0⟩
  | .wheel y left =>
      match left, m.ctrl, m.shift, m.alt with
      | true, _, _, _ => .roll (V.angleRatio * y)
      | _, true, true, _ => .roll (V.angleRatio * y)
      | _, false, true, true => .orbit (V.angleRatio * y) 0
      | _, true, false, true => .orbit 0 (V.angleRatio * y)
      | _, true, false, false => .slide ⟨V.scrollRatio * y, 0, 0⟩
      | _, false, true, false => .slide ⟨0, V.scrollRatio * y, 0⟩
      | _, false, false, false => .slide ⟨0, 0, -(V.scrollRatio * y)⟩
      | _, false, false, true => .stay
  | _ => .stay

/-- The point of the camera's coordinates at the origin of the world. -/
def originAt (E : Qutr) (o : V3) : Prop := qutrTf E o = ⟨0, 0, 0⟩

/-- The pose after an effect, by what it does to all points in the coordinates of
the camera. An orbit turns about the origin of the world, which stays where it is
in the picture. -/
def After (home E E' : Qutr) : Effect → Prop
  | .orbit tilt pan => ∀ o, originAt E o → ∀ c,
      qutrTf E' c = rotZ pan (qutrTf E (vadd (rotX tilt (sub c o)) o))
  | .slide v => ∀ c, qutrTf E' c = qutrTf E (vadd c v)
  | .roll t => ∀ c, qutrTf E' c = qutrTf E (rotZ t c)
  | .home => ∀ c, qutrTf E' c = qutrTf home c
  | .stay => ∀ c, qutrTf E' c = qutrTf E c

/-! ### Rotations -/

theorem qrot_add (q : Quat) (a b : V3) : qrot q (vadd a b) = vadd (qrot q a) (qrot q b) := by
  ext <;> simp [qrot, vadd] <;> ring

theorem qrot_zero (q : Quat) : qrot q ⟨0, 0, 0⟩ = ⟨0, 0, 0⟩ := by
  ext <;> simp [qrot]

theorem axang_unit {a : V3} (t : ℝ) (h : a.x ^ 2 + a.y ^ 2 + a.z ^ 2 = 1) :
    Tf.Unit (axang2quat ⟨a, t⟩) := by
  have hs := Real.sin_sq_add_cos_sq (t / 2)
  simp only [Tf.Unit, axang2quat]
  linear_combination Real.sin (t / 2) ^ 2 * h + hs

theorem axang_z (t : ℝ) (p : V3) : qrot (axang2quat ⟨⟨0, 0, 1⟩, t⟩) p = rotZ t p := by
  have hs := Real.sin_sq_add_cos_sq (t / 2)
  have h1 : Real.cos t = Real.cos (t / 2) ^ 2 - Real.sin (t / 2) ^ 2 := by
    rw [← Real.cos_two_mul']; congr 1; ring
  have h2 : Real.sin t = 2 * Real.sin (t / 2) * Real.cos (t / 2) := by
    rw [← Real.sin_two_mul]; congr 1; ring
  ext <;> simp only [qrot, axang2quat, rotZ, h1, h2]
  · linear_combination (-p.x) * hs
  · linear_combination (-p.y) * hs
  · ring

theorem axang_x (t : ℝ) (p : V3) : qrot (axang2quat ⟨⟨1, 0, 0⟩, t⟩) p = rotX t p := by
  have hs := Real.sin_sq_add_cos_sq (t / 2)
  have h1 : Real.cos t = Real.cos (t / 2) ^ 2 - Real.sin (t / 2) ^ 2 := by
    rw [← Real.cos_two_mul']; congr 1; ring
  have h2 : Real.sin t = 2 * Real.sin (t / 2) * Real.cos (t / 2) := by
    rw [← Real.sin_two_mul]; congr 1; ring
  ext <;> simp only [qrot, axang2quat, rotX, h1, h2]
  · ring
  · linear_combination (-p.y) * hs
  · linear_combination (-p.z) * hs

theorem col_unit {q : Quat} (h : Tf.Unit q) :
    (quat2rotmat q).m0 ^ 2 + (quat2rotmat q).m1 ^ 2 + (quat2rotmat q).m2 ^ 2 = 1 := by
  rw [Tf.Unit] at h
  have hw : q.w ^ 2 = 1 - q.x ^ 2 - q.y ^ 2 - q.z ^ 2 := by linarith
  simp only [quat2rotmat, skewsymScalC, Quat.vec]
  linear_combination (4 * q.y ^ 2 + 4 * q.z ^ 2) * hw

/-- Turning about the horizontal axis of the camera. -/
theorem axang_col {q : Quat} (h : Tf.Unit q) (t : ℝ) :
    qmul (axang2quat ⟨⟨(quat2rotmat q).m0, (quat2rotmat q).m1, (quat2rotmat q).m2⟩, t⟩) q =
      qmul q (axang2quat ⟨⟨1, 0, 0⟩, t⟩) := by
  rw [Tf.Unit] at h
  ext <;> simp only [quat2rotmat, skewsymScalC, Quat.vec, qmul, axang2quat]
  · ring
  · linear_combination Real.sin (t / 2) * (2 * q.z) * h
  · linear_combination Real.sin (t / 2) * (-2 * q.y) * h
  · ring

theorem originAt_exists {E : Qutr} (h : E.Valid) : ∃ o, originAt E o := by
  refine ⟨qrot (qconj E.q) (vneg E.v), ?_⟩
  rw [originAt, qutrTf_eq, (C23_inverse _ _ h).2]
  ext <;> simp [vadd, vneg]

theorem tf_ident (E : Qutr) : qutrMul E qutrident = E ∧ qutrMul qutrident E = E := by
  constructor <;> cases E <;> simp [qutrMul, qutrident, qident, qmul, qutrTf]

theorem tf_shift (E : Qutr) (x y z : ℝ) (c : V3) :
    qutrTf (qutrMul (qutrMul qutrident E) (shiftE x y z)) c = qutrTf E (vadd c ⟨x, y, z⟩) := by
  rw [(tf_ident E).2]
  rw [qutrTf_eq, qutrTf_eq]
  simp only [qutrMul, shiftE]
  rw [qutrTf_eq]
  have : qmul E.q qident = E.q := by ext <;> simp [qmul, qident]
  rw [this, qrot_add]
  ext <;> simp [vadd] <;> ring

theorem tf_scroll {E : Qutr} (h : E.Valid) (x y : ℝ) {o : V3} (ho : originAt E o) (c : V3) :
    qutrTf (qutrMul (qutrMul (scroll x y (quat2rotmat E.q)) E) qutrident) c =
      rotZ y (qutrTf E (vadd (rotX x (sub c o)) o)) := by
  rw [(tf_ident _).1]
  have hz : Tf.Unit (axang2quat ⟨⟨0, 0, 1⟩, y⟩) := axang_unit y (by norm_num)
  have hx : Tf.Unit (axang2quat ⟨⟨1, 0, 0⟩, x⟩) := axang_unit x (by norm_num)
  have ha := axang_unit (a := ⟨(quat2rotmat E.q).m0, (quat2rotmat E.q).m1,
    (quat2rotmat E.q).m2⟩) x (col_unit h)
  have ho' : E.v = vneg (qrot E.q o) := by
    rw [originAt, qutrTf_eq] at ho
    have h1 := congrArg V3.x ho
    have h2 := congrArg V3.y ho
    have h3 := congrArg V3.z ho
    simp only [vadd] at h1 h2 h3
    ext <;> simp only [vneg] <;> linarith
  have hc : vadd (sub c o) o = c := by ext <;> simp [vadd, sub]
  have key : ∀ p, qrot (qmul (axang2quat ⟨⟨0, 0, 1⟩, y⟩) (axang2quat ⟨⟨(quat2rotmat E.q).m0,
      (quat2rotmat E.q).m1, (quat2rotmat E.q).m2⟩, x⟩)) (qrot E.q p) =
      rotZ y (qrot E.q (rotX x p)) := by
    intro p
    rw [C23_compose _ _ _ hz ha, ← C23_compose _ _ _ ha h, axang_col h,
      C23_compose _ _ _ h hx, axang_x, axang_z]
  have hE : qrot E.q (rotX x (sub c o)) = qutrTf E (vadd (rotX x (sub c o)) o) := by
    rw [qutrTf_eq, qrot_add, ho']
    ext <;> simp [vadd, vneg]
  rw [← hE, ← key, qutrTf_eq]
  simp only [qutrMul, scroll]
  rw [qutrTf_eq, C23_compose _ _ _ (C21_qmulnorm _ _ hz ha).2 h, ho']
  conv_lhs => rw [← hc, qrot_add]
  rw [qrot_add]
  have hneg : ∀ q v, qrot q (vneg v) = vneg (qrot q v) := by
    intro q v; ext <;> simp [qrot, vneg] <;> ring
  rw [hneg]
  ext <;> simp [vadd, vneg]

theorem tf_roll {E : Qutr} (h : E.Valid) (t : ℝ) (c : V3) :
    qutrTf (qutrMul (qutrMul qutrident E) ⟨angle2quat .Z t, ⟨0, 0, 0⟩⟩) c =
      qutrTf E (rotZ t c) := by
  rw [(tf_ident E).2]
  have hz : Tf.Unit (axang2quat ⟨⟨0, 0, 1⟩, t⟩) := axang_unit t (by norm_num)
  have hq : angle2quat .Z t = axang2quat ⟨⟨0, 0, 1⟩, t⟩ := by
    ext <;> simp [angle2quat, axang2quat]
  rw [hq, qutrTf_eq, qutrTf_eq]
  simp only [qutrMul]
  rw [C23_compose _ _ _ h hz, axang_z, qutrTf_eq, qrot_zero]
  ext <;> simp [vadd]

theorem valid_scroll {E : Qutr} (h : E.Valid) (x y : ℝ) :
    (qutrMul (qutrMul (scroll x y (quat2rotmat E.q)) E) qutrident).Valid := by
  rw [(tf_ident _).1]
  refine qutrMul_valid ?_ h
  exact (C21_qmulnorm _ _ (axang_unit y (by norm_num)) (axang_unit x (col_unit h))).2

theorem valid_ident : qutrident.Valid := by simp [Qutr.Valid, Tf.Unit, qutrident, qident]

theorem valid_post {E P : Qutr} (h : E.Valid) (hp : P.Valid) :
    (qutrMul (qutrMul qutrident E) P).Valid := by
  rw [(tf_ident E).2]; exact qutrMul_valid h hp

theorem valid_shift (x y z : ℝ) : (shiftE x y z).Valid := by
  simp [Qutr.Valid, Tf.Unit, shiftE, qident]

theorem valid_roll (t : ℝ) : Qutr.Valid ⟨angle2quat .Z t, ⟨0, 0, 0⟩⟩ := by
  have hs := Real.sin_sq_add_cos_sq (t / 2)
  simp only [Qutr.Valid, Tf.Unit, angle2quat]
  linarith

/-! ### Single events -/

theorem after_scroll {V : View} {H : Qutr} (h : V.G.worldECam.Valid) {x y x' y' : ℝ}
    (hx : x = x') (hy : y = y') :
    After H V.G.worldECam
      (move V (scroll x y (quat2rotmat V.G.worldECam.q)) qutrident).G.worldECam
      (.orbit x' y') := by
  subst hx hy
  intro o ho c
  exact tf_scroll h x y ho c

theorem after_slide {V : View} {H : Qutr} {x y z x' y' z' : ℝ}
    (hx : x = x') (hy : y = y') (hz : z = z') :
    After H V.G.worldECam (move V qutrident (shiftE x y z)).G.worldECam
      (.slide ⟨x', y', z'⟩) := by
  subst hx hy hz
  intro c
  exact tf_shift _ x y z c

/-- C108: each event does to the camera what the table says; the pose stays a pose;
the settings stay, the position of the mouse is the last one. -/
theorem C108_event (V : View) (m : Mods) (e : Ev) (h : V.G.worldECam.Valid)
    (hh : V.G.worldEHome.Valid) :
    After V.G.worldEHome V.G.worldECam (scrollEvent V m e).G.worldECam (effect V m e) ∧
    (scrollEvent V m e).G.worldECam.Valid ∧
    (scrollEvent V m e).G.worldEHome = V.G.worldEHome ∧
    (scrollEvent V m e).scrollRatio = V.scrollRatio ∧
    (scrollEvent V m e).angleRatio = V.angleRatio ∧
    ((scrollEvent V m e).mouseX, (scrollEvent V m e).mouseY) =
      (match e with
        | .down x y => (x, y)
        | .motion x y _ _ => (x, y)
        | _ => (V.mouseX, V.mouseY)) := by
  cases e with
  | exposed => exact ⟨fun _ => rfl, h, rfl, rfl, rfl, rfl⟩
  | resized w h' => exact ⟨fun _ => rfl, h, rfl, rfl, rfl, rfl⟩
  | other => exact ⟨fun _ => rfl, h, rfl, rfl, rfl, rfl⟩
  | down x y => exact ⟨fun _ => rfl, h, rfl, rfl, rfl, rfl⟩
  | key k =>
    cases k with
    | kp2 =>
      simp only [scrollEvent, effect]
      cases m.ctrl
      · exact ⟨after_scroll h (by ring) rfl, valid_scroll h _ _, rfl, rfl, rfl, rfl⟩
      · exact ⟨after_slide rfl (by ring) rfl, valid_post h (valid_shift _ _ _), rfl, rfl, rfl, rfl⟩
    | kp8 =>
      simp only [scrollEvent, effect]
      cases m.ctrl
      · exact ⟨after_scroll h (by ring) rfl, valid_scroll h _ _, rfl, rfl, rfl, rfl⟩
      · exact ⟨after_slide rfl (by ring) rfl, valid_post h (valid_shift _ _ _), rfl, rfl, rfl, rfl⟩
    | kp4 =>
      simp only [scrollEvent, effect]
      cases m.ctrl
      · exact ⟨after_scroll h rfl (by ring), valid_scroll h _ _, rfl, rfl, rfl, rfl⟩
      · exact ⟨after_slide (by ring) rfl rfl, valid_post h (valid_shift _ _ _), rfl, rfl, rfl, rfl⟩
    | kp6 =>
      simp only [scrollEvent, effect]
      cases m.ctrl
      · exact ⟨after_scroll h rfl (by ring), valid_scroll h _ _, rfl, rfl, rfl, rfl⟩
      · exact ⟨after_slide (by ring) rfl rfl, valid_post h (valid_shift _ _ _), rfl, rfl, rfl, rfl⟩
    | minus =>
      exact ⟨after_slide rfl rfl (by ring), valid_post h (valid_shift _ _ _), rfl, rfl, rfl, rfl⟩
    | plus =>
      exact ⟨after_slide rfl rfl (by ring), valid_post h (valid_shift _ _ _), rfl, rfl, rfl, rfl⟩
    | home =>
      refine ⟨?_, valid_post hh valid_ident, rfl, rfl, rfl, rfl⟩
      intro c
      show qutrTf (qutrMul (qutrMul qutrident V.G.worldEHome) qutrident) c = _
      rw [(tf_ident _).1, (tf_ident _).2]
    | c => exact ⟨fun _ => rfl, h, rfl, rfl, rfl, rfl⟩
    | other => exact ⟨fun _ => rfl, h, rfl, rfl, rfl, rfl⟩
  | motion x y left right =>
    simp only [scrollEvent]
    cases left
    · cases right
      · exact ⟨fun _ => rfl, h, rfl, rfl, rfl, trivial⟩
      · refine ⟨?_, valid_post h (valid_shift _ _ _), rfl, rfl, rfl, trivial⟩
        exact after_slide (by push_cast; ring) (by push_cast; ring) rfl
    · refine ⟨?_, valid_scroll h _ _, rfl, rfl, rfl, trivial⟩
      exact after_scroll h (by push_cast; ring) (by push_cast; ring)
  | wheel y left =>
    have hr : ∀ t : ℝ, After V.G.worldEHome V.G.worldECam
        (move V qutrident ⟨angle2quat .Z t, ⟨0, 0, 0⟩⟩).G.worldECam (.roll t) :=
      fun t c => tf_roll h t c
    simp only [scrollEvent, effect]
    cases left <;> cases m.ctrl <;> cases m.shift <;> cases m.alt <;>
      simp only [Bool.and_true, Bool.and_false, Bool.or_true, Bool.or_false, Bool.not_true,
        Bool.not_false, Bool.false_eq_true, if_true, if_false]
    · exact ⟨after_slide rfl rfl (by ring), valid_post h (valid_shift _ _ _), rfl, rfl, rfl, rfl⟩
    · refine ⟨?_, valid_post h valid_ident, rfl, rfl, rfl, rfl⟩
      intro c
      show qutrTf (qutrMul (qutrMul qutrident V.G.worldECam) qutrident) c = _
      rw [(tf_ident _).1, (tf_ident _).2]
    · exact ⟨after_slide rfl rfl rfl, valid_post h (valid_shift _ _ _), rfl, rfl, rfl, rfl⟩
    · exact ⟨after_scroll h rfl rfl, valid_scroll h _ _, rfl, rfl, rfl, rfl⟩
    · exact ⟨after_slide rfl rfl rfl, valid_post h (valid_shift _ _ _), rfl, rfl, rfl, rfl⟩
    · exact ⟨after_scroll h rfl rfl, valid_scroll h _ _, rfl, rfl, rfl, rfl⟩
    all_goals exact ⟨hr _, valid_post h (valid_roll _), rfl, rfl, rfl, rfl⟩

/-- C108: the picture is drawn again after an event that asks for it or moves the
camera. -/
theorem C108_update_partial (V : View) (m : Mods) (e : Ev) :
    (V.update = true ∨ e = .exposed ∨ effect V m e ≠ .stay ∨
      (scrollEvent V m e).G.worldECam ≠ V.G.worldECam) → (scrollEvent V m e).update = true := by
  intro h
  by_contra hu
  have stuck : effect V m e = .stay ∧ e ≠ .exposed ∧ V.update ≠ true ∧
      (scrollEvent V m e).G.worldECam = V.G.worldECam := by
    cases e with
    | exposed => exact absurd rfl hu
    | resized w h' => exact ⟨rfl, nofun, hu, rfl⟩
    | other => exact ⟨rfl, nofun, hu, rfl⟩
    | down x y => exact ⟨rfl, nofun, hu, rfl⟩
    | key k =>
      cases k <;> simp only [scrollEvent] at hu ⊢ <;>
        first
        | exact ⟨rfl, nofun, hu, trivial⟩
        | exact absurd rfl hu
        | (exfalso; revert hu; cases m.ctrl <;> exact fun hu => hu rfl)
    | motion x y left right =>
      simp only [scrollEvent] at hu ⊢
      cases left
      · cases right
        · exact ⟨rfl, nofun, hu, rfl⟩
        · exact absurd rfl hu
      · exact absurd rfl hu
    | wheel y left =>
      exfalso
      simp only [scrollEvent] at hu
      revert hu
      split_ifs <;> exact fun hu => hu rfl
  obtain ⟨h1, h2, h3, h4⟩ := stuck
  rcases h with h | h | h | h
  exacts [h3 h, h2 h, h h1, h h4]

/-- C108 does not hold for the size of the window: another size changes the picture,
and the event does not ask to draw it. -/
theorem C108_violates_resize : ∃ (V : View) (m : Mods) (e : Ev),
    V.G.worldECam.Valid ∧ (scrollEvent V m e).G.aspect ≠ V.G.aspect ∧
    (∃ c : V3, renderMat (scrollEvent V m e).G *ᵥ hom (qutrTf V.G.worldECam c) ≠
      renderMat V.G *ᵥ hom (qutrTf V.G.worldECam c)) ∧
    (scrollEvent V m e).update = false := by
  have hv : (Gl.View.new).pose.Valid := (ok_new 1 one_pos).pose
  have hr := rep_new
  refine ⟨⟨globalsCreate, 0, 0, 1, 1, false⟩, ⟨false, false, false⟩, .resized 2 1, ?_, ?_,
    ⟨⟨1, 0, 0⟩, ?_⟩, rfl⟩
  · show globalsCreate.worldECam.Valid
    rw [hr.pose]; exact hv
  · show ((2 : ℤ) : ℝ) / ((1 : ℤ) : ℝ) ≠ globalsCreate.aspect
    have : globalsCreate.aspect = 1 / 1 := rfl
    rw [this]
    norm_num
  · show (matPerspective globalsCreate.fovy (((2 : ℤ) : ℝ) / ((1 : ℤ) : ℝ)) globalsCreate.znear
      globalsCreate.zfar * globalsCreate.camM) *ᵥ hom (qutrTf globalsCreate.worldECam ⟨1, 0, 0⟩) ≠
      (globalsCreate.persp * globalsCreate.camM) *ᵥ hom (qutrTf globalsCreate.worldECam ⟨1, 0, 0⟩)
    rw [← Matrix.mulVec_mulVec, ← Matrix.mulVec_mulVec, hr.cam, hr.pose, cam_hom hv rfl, hr.persp,
      persp_hom, persp_hom]
    intro e
    have e0 := congrFun e 0
    have ht := tan_half_pos (f := Real.pi / 4) ⟨by positivity, by linarith [Real.pi_pos]⟩
    rw [hr.fovy] at e0
    change 1 / (((2 : ℤ) : ℝ) / ((1 : ℤ) : ℝ) * Real.tan (Real.pi / 4 / 2)) * 1 =
      1 / (1 * Real.tan (Real.pi / 4 / 2)) * 1 at e0
    generalize Real.tan (Real.pi / 4 / 2) = t at ht e0
    push_cast at e0
    field_simp at e0
    norm_num at e0

/-! ### Sequences of events -/

/-- The effects of a sequence of events. -/
noncomputable def effects (V : View) : List (Mods × Ev) → List Effect
  | [] => []
  | e :: es => effect V e.1 e.2 :: effects (scrollEvent V e.1 e.2) es

theorem rotZ_add (s t : ℝ) (p : V3) : rotZ s (rotZ t p) = rotZ (s + t) p := by
  ext <;> simp only [rotZ, Real.cos_add, Real.sin_add] <;> ring

theorem rotX_add (s t : ℝ) (p : V3) : rotX s (rotX t p) = rotX (s + t) p := by
  ext <;> simp only [rotX, Real.cos_add, Real.sin_add] <;> ring

theorem sub_self (o : V3) : sub o o = ⟨0, 0, 0⟩ := by ext <;> simp [sub]

theorem rotX_zero' (t : ℝ) : rotX t ⟨0, 0, 0⟩ = ⟨0, 0, 0⟩ := by ext <;> simp [rotX]
theorem rotZ_zero' (t : ℝ) : rotZ t ⟨0, 0, 0⟩ = ⟨0, 0, 0⟩ := by ext <;> simp [rotZ]
theorem zero_vadd (o : V3) : vadd ⟨0, 0, 0⟩ o = o := by ext <;> simp [vadd]
theorem vadd_sub (p o : V3) : sub (vadd p o) o = p := by ext <;> simp [vadd, sub]
theorem sub_vadd (p o : V3) : vadd (sub p o) o = p := by ext <;> simp [vadd, sub]

theorem origin_orbit {H E E' : Qutr} {x y : ℝ} (h : After H E E' (.orbit x y)) {o : V3}
    (ho : originAt E o) : originAt E' o := by
  rw [originAt, h o ho o, sub_self, rotX_zero', zero_vadd, ho, rotZ_zero']

theorem orbit_trans {H E E' E'' : Qutr} {x y x' y' : ℝ} (h : After H E E' (.orbit x y))
    (h' : After H E' E'' (.orbit x' y')) : After H E E'' (.orbit (x + x') (y + y')) := by
  intro o ho c
  rw [h' o (origin_orbit h ho) c, h o ho, vadd_sub, rotX_add, rotZ_add, add_comm y]

theorem slide_trans {H E E' E'' : Qutr} {v v' : V3} (h : After H E E' (.slide v))
    (h' : After H E' E'' (.slide v')) : After H E E'' (.slide (vadd v v')) := by
  intro c
  rw [h' c, h]
  congr 1
  ext <;> simp [vadd] <;> ring

/-- C108: events that turn the camera may come in any number and order, the result
depends on the sums of their angles only. -/
theorem C108_orbits (V : View) (es : List (Mods × Ev)) (xs : List (ℝ × ℝ))
    (h : V.G.worldECam.Valid) (hh : V.G.worldEHome.Valid)
    (he : effects V es = xs.map fun x => .orbit x.1 x.2) :
    After V.G.worldEHome V.G.worldECam (events V es).G.worldECam
      (.orbit (xs.map Prod.fst).sum (xs.map Prod.snd).sum) := by
  induction es generalizing V xs with
  | nil =>
    cases xs with
    | cons x xs => simp [effects] at he
    | nil =>
      intro o _ c
      have h1 : ∀ p, rotX 0 p = p := by intro p; ext <;> simp [rotX]
      have h2 : ∀ p, rotZ 0 p = p := by intro p; ext <;> simp [rotZ]
      show qutrTf V.G.worldECam c = _
      simp only [List.map_nil, List.sum_nil, h1, h2, sub_vadd]
  | cons e es ih =>
    cases xs with
    | nil => simp [effects] at he
    | cons x xs =>
      simp only [effects, List.map_cons, List.cons.injEq] at he
      obtain ⟨a1, a2, a3, _⟩ := C108_event V e.1 e.2 h hh
      rw [he.1] at a1
      have := ih (scrollEvent V e.1 e.2) xs a2 (by rw [a3]; exact hh) he.2
      rw [a3] at this
      simp only [List.map_cons, List.sum_cons]
      exact orbit_trans a1 this

/-- C108: events that move the camera along its axes add up. -/
theorem C108_slides (V : View) (es : List (Mods × Ev)) (xs : List V3)
    (h : V.G.worldECam.Valid) (hh : V.G.worldEHome.Valid)
    (he : effects V es = xs.map .slide) :
    After V.G.worldEHome V.G.worldECam (events V es).G.worldECam
      (.slide ⟨(xs.map V3.x).sum, (xs.map V3.y).sum, (xs.map V3.z).sum⟩) := by
  induction es generalizing V xs with
  | nil =>
    cases xs with
    | cons x xs => simp [effects] at he
    | nil =>
      intro c
      show qutrTf V.G.worldECam c = _
      congr 1
      ext <;> simp [vadd]
  | cons e es ih =>
    cases xs with
    | nil => simp [effects] at he
    | cons x xs =>
      simp only [effects, List.map_cons, List.cons.injEq] at he
      obtain ⟨a1, a2, a3, _⟩ := C108_event V e.1 e.2 h hh
      rw [he.1] at a1
      have := ih (scrollEvent V e.1 e.2) xs a2 (by rw [a3]; exact hh) he.2
      rw [a3] at this
      simp only [List.map_cons, List.sum_cons]
      exact slide_trans a1 this

theorem orbit_closed {H E E' : Qutr} (h : After H E E' (.orbit 0 0)) (hE : E.Valid) (c : V3) :
    qutrTf E' c = qutrTf E c := by
  have h1 : ∀ p, rotX 0 p = p := by intro p; ext <;> simp [rotX]
  have h2 : ∀ p, rotZ 0 p = p := by intro p; ext <;> simp [rotZ]
  obtain ⟨o, ho⟩ := originAt_exists hE
  rw [h o ho, h1, h2, sub_vadd]

/-- C108: turns whose angles sum to zero give back the picture. -/
theorem C108_undo (V : View) (es : List (Mods × Ev)) (xs : List (ℝ × ℝ))
    (h : V.G.worldECam.Valid) (hh : V.G.worldEHome.Valid)
    (he : effects V es = xs.map fun x => .orbit x.1 x.2)
    (hx : (xs.map Prod.fst).sum = 0) (hy : (xs.map Prod.snd).sum = 0) (c : V3) :
    qutrTf (events V es).G.worldECam c = qutrTf V.G.worldECam c := by
  have := C108_orbits V es xs h hh he
  rw [hx, hy] at this
  exact orbit_closed this h c

/-- The last position of a path of the mouse. -/
def lastPos (x y : ℤ) (path : List (Mods × ℤ × ℤ × Bool)) : ℤ × ℤ :=
  path.foldl (fun _ q => (q.2.1, q.2.2.1)) (x, y)

/-- C108: a drag with the left button turns the camera by the way from the first to
the last position of the mouse, for all paths in between. -/
theorem C108_drag (V : View) (m : Mods) (x y : ℤ) (path : List (Mods × ℤ × ℤ × Bool))
    (h : V.G.worldECam.Valid) (hh : V.G.worldEHome.Valid) :
    After V.G.worldEHome V.G.worldECam
      (events V ((m, .down x y) ::
        path.map fun q => (q.1, .motion q.2.1 q.2.2.1 true q.2.2.2))).G.worldECam
      (.orbit (-(V.angleRatio * ((lastPos x y path).2 - y) / 10))
        (-(V.angleRatio * ((lastPos x y path).1 - x) / 10))) := by
  have key : ∀ (path : List (Mods × ℤ × ℤ × Bool)) (V : View), V.G.worldECam.Valid →
      V.G.worldEHome.Valid → After V.G.worldEHome V.G.worldECam
        (events V (path.map fun q => (q.1, .motion q.2.1 q.2.2.1 true q.2.2.2))).G.worldECam
        (.orbit (-(V.angleRatio * ((lastPos V.mouseX V.mouseY path).2 - V.mouseY) / 10))
          (-(V.angleRatio * ((lastPos V.mouseX V.mouseY path).1 - V.mouseX) / 10))) := by
    intro path
    induction path with
    | nil =>
      intro V h hh
      have := C108_orbits V [] [] h hh rfl
      simpa [lastPos] using this
    | cons q path ih =>
      intro V h hh
      obtain ⟨a1, a2, a3, a4, a5, a6⟩ := C108_event V q.1 (.motion q.2.1 q.2.2.1 true q.2.2.2) h hh
      have b := ih (scrollEvent V q.1 (.motion q.2.1 q.2.2.1 true q.2.2.2)) a2 (by rw [a3]; exact hh)
      simp only [Prod.mk.injEq] at a6
      rw [a3, a5, a6.1, a6.2] at b
      have c := orbit_trans a1 b
      have e : ∀ u v : ℝ, ∀ u' v' : ℝ, u = u' → v = v' →
          After V.G.worldEHome V.G.worldECam
            (events V ((q :: path).map fun q =>
              (q.1, .motion q.2.1 q.2.2.1 true q.2.2.2))).G.worldECam (.orbit u v) →
          After V.G.worldEHome V.G.worldECam
            (events V ((q :: path).map fun q =>
              (q.1, .motion q.2.1 q.2.2.1 true q.2.2.2))).G.worldECam (.orbit u' v') := by
        rintro u v _ _ rfl rfl hc; exact hc
      refine e _ _ _ _ ?_ ?_ c <;> simp only [lastPos, List.foldl_cons] <;> ring
  exact key path { V with mouseX := x, mouseY := y } h hh

/-- C108: a drag with the right button moves the camera by the way from the first to
the last position of the mouse. -/
theorem C108_drag_right (V : View) (m : Mods) (x y : ℤ) (path : List (Mods × ℤ × ℤ))
    (h : V.G.worldECam.Valid) (hh : V.G.worldEHome.Valid) :
    let l := lastPos x y (path.map fun q => (q.1, q.2.1, q.2.2, true))
    After V.G.worldEHome V.G.worldECam
      (events V ((m, .down x y) ::
        path.map fun q => (q.1, .motion q.2.1 q.2.2 false true))).G.worldECam
      (.slide ⟨-(V.scrollRatio * (l.1 - x) / 10), V.scrollRatio * (l.2 - y) / 10, 0⟩) := by
  have key : ∀ (path : List (Mods × ℤ × ℤ)) (V : View), V.G.worldECam.Valid →
      V.G.worldEHome.Valid →
      let l := lastPos V.mouseX V.mouseY (path.map fun q => (q.1, q.2.1, q.2.2, true))
      After V.G.worldEHome V.G.worldECam
        (events V (path.map fun q => (q.1, .motion q.2.1 q.2.2 false true))).G.worldECam
        (.slide ⟨-(V.scrollRatio * (l.1 - V.mouseX) / 10),
          V.scrollRatio * (l.2 - V.mouseY) / 10, 0⟩) := by
    intro path
    induction path with
    | nil =>
      intro V h hh
      have := C108_slides V [] [] h hh rfl
      simpa [lastPos] using this
    | cons q path ih =>
      intro V h hh
      obtain ⟨a1, a2, a3, a4, a5, a6⟩ := C108_event V q.1 (.motion q.2.1 q.2.2 false true) h hh
      have b := ih (scrollEvent V q.1 (.motion q.2.1 q.2.2 false true)) a2 (by rw [a3]; exact hh)
      simp only [Prod.mk.injEq] at a6
      simp only [] at b
      rw [a3, a4, a6.1, a6.2] at b
      have c := slide_trans a1 b
      intro l
      have e : ∀ u u' : V3, u = u' →
          After V.G.worldEHome V.G.worldECam
            (events V ((q :: path).map fun q =>
              (q.1, .motion q.2.1 q.2.2 false true))).G.worldECam (.slide u) →
          After V.G.worldEHome V.G.worldECam
            (events V ((q :: path).map fun q =>
              (q.1, .motion q.2.1 q.2.2 false true))).G.worldECam (.slide u') := by
        rintro u _ rfl hc; exact hc
      refine e _ _ ?_ c
      ext <;> simp only [l, vadd, lastPos, List.map_cons, List.foldl_cons] <;> ring
  exact key path { V with mouseX := x, mouseY := y } h hh

/-! ### What stays -/

/-- Height by which the horizontal axis of the picture rises. -/
def tiltOf (E : Qutr) : ℝ := (qutrTf E ⟨1, 0, 0⟩).z - (qutrTf E ⟨0, 0, 0⟩).z

theorem tf_affine (E : Qutr) (a b : V3) : qutrTf E (vadd a b) = vadd (qrot E.q a) (qutrTf E b) := by
  rw [qutrTf_eq, qutrTf_eq, qrot_add]
  ext <;> simp [vadd] <;> ring

theorem tiltOf_eq (E : Qutr) (b : V3) :
    (qutrTf E (vadd ⟨1, 0, 0⟩ b)).z - (qutrTf E b).z = tiltOf E := by
  have h : (⟨1, 0, 0⟩ : V3) = vadd ⟨1, 0, 0⟩ ⟨0, 0, 0⟩ := by simp [vadd]
  rw [tiltOf, h, tf_affine, tf_affine E ⟨1, 0, 0⟩ ⟨0, 0, 0⟩, ← h]
  simp [vadd]

theorem vnorm_rotZ (t : ℝ) (p : V3) : vnorm (rotZ t p) = vnorm p := by
  have hs := Real.sin_sq_add_cos_sq t
  simp only [vnorm, vdot, rotZ]
  congr 1
  linear_combination (p.x ^ 2 + p.y ^ 2) * hs

theorem vnorm_rotX (t : ℝ) (p : V3) : vnorm (rotX t p) = vnorm p := by
  have hs := Real.sin_sq_add_cos_sq t
  simp only [vnorm, vdot, rotX]
  congr 1
  linear_combination (p.y ^ 2 + p.z ^ 2) * hs

/-- C108: turns and movements never tilt the horizon. -/
theorem C108_level {H E E' : Qutr} (hE : E.Valid) {f : Effect} (h : After H E E' f)
    (hf : (∃ x y, f = .orbit x y) ∨ (∃ v, f = .slide v) ∨ f = .stay) :
    tiltOf E' = tiltOf E := by
  rcases hf with ⟨x, y, rfl⟩ | ⟨v, rfl⟩ | rfl
  · obtain ⟨o, ho⟩ := originAt_exists hE
    rw [tiltOf, h o ho, h o ho]
    have e : vadd (rotX x (sub ⟨1, 0, 0⟩ o)) o = vadd ⟨1, 0, 0⟩ (vadd (rotX x (sub ⟨0, 0, 0⟩ o)) o) := by
      ext <;> simp [vadd, rotX, sub]
    rw [e]
    exact tiltOf_eq E _
  · rw [tiltOf, h, h]
    have e : vadd ⟨0, 0, 0⟩ v = v := by simp [vadd]
    rw [e]
    exact tiltOf_eq E _
  · rw [tiltOf, h, h]; rfl

/-- C108: turns keep the distance of the camera from the origin, and where the origin
is in the picture. -/
theorem C108_distance {H E E' : Qutr} (hE : E.Valid) {x y : ℝ} (h : After H E E' (.orbit x y)) :
    vnorm (qutrTf E' ⟨0, 0, 0⟩) = vnorm (qutrTf E ⟨0, 0, 0⟩) ∧
    ∀ o, originAt E o → originAt E' o := by
  refine ⟨?_, fun o ho => origin_orbit h ho⟩
  obtain ⟨o, ho⟩ := originAt_exists hE
  have e0 : (⟨0, 0, 0⟩ : V3) = vadd (sub ⟨0, 0, 0⟩ o) o := by simp [vadd, sub]
  have z : ∀ p : V3, vadd p ⟨0, 0, 0⟩ = p := by intro p; simp [vadd]
  rw [h o ho, vnorm_rotZ]
  conv_rhs => rw [e0, tf_affine, ho, z, C23_norm _ _ hE]
  rw [tf_affine, ho, z, C23_norm _ _ hE, vnorm_rotX]

/-- C108: the matrix for drawing belongs to the pose of the camera. -/
theorem C108_drawn (V : View) (es : List (Mods × Ev)) (h : V.G.worldECam.Valid)
    (hh : V.G.worldEHome.Valid)
    (hm : ∀ c, V.G.camM *ᵥ hom (qutrTf V.G.worldECam c) = hom c) :
    (events V es).G.worldECam.Valid ∧
    ∀ c, (events V es).G.camM *ᵥ hom (qutrTf (events V es).G.worldECam c) = hom c := by
  induction es generalizing V with
  | nil => exact ⟨h, hm⟩
  | cons e es ih =>
    obtain ⟨_, a2, a3, _⟩ := C108_event V e.1 e.2 h hh
    refine ih (scrollEvent V e.1 e.2) a2 (by rw [a3]; exact hh) ?_
    have key : (scrollEvent V e.1 e.2).G.camM = V.G.camM ∧
        (scrollEvent V e.1 e.2).G.worldECam = V.G.worldECam ∨
        (scrollEvent V e.1 e.2).G.camM =
          tfmat2glmat (tfmInv (qutr2tfmat (scrollEvent V e.1 e.2).G.worldECam)) := by
      obtain ⟨m, e⟩ := e
      cases e with
      | exposed => exact .inl ⟨rfl, rfl⟩
      | resized w h' => exact .inl ⟨rfl, rfl⟩
      | other => exact .inl ⟨rfl, rfl⟩
      | down x y => exact .inl ⟨rfl, rfl⟩
      | key k =>
        cases k <;> simp only [scrollEvent] <;>
          first
          | exact .inl ⟨trivial, trivial⟩
          | exact .inr rfl
          | (right; cases m.ctrl <;> rfl)
      | motion x y left right =>
        cases left
        · cases right
          · exact .inl ⟨rfl, rfl⟩
          · exact .inr rfl
        · exact .inr rfl
      | wheel y left =>
        right
        simp only [scrollEvent]
        split_ifs <;> rfl
    intro c
    rcases key with ⟨k1, k2⟩ | k
    · rw [k1, k2, hm]
    · rw [k]; exact cam_hom a2 rfl

/-! ### Cases -/

/-- A camera at the default place. -/
noncomputable def start : View := ⟨globalsCreate, 0, 0, 1 / 10, 1 / 10, false⟩

theorem start_valid : start.G.worldECam.Valid ∧ start.G.worldEHome.Valid ∧
    ∀ c, start.G.camM *ᵥ hom (qutrTf start.G.worldECam c) = hom c := by
  have hv : (Gl.View.new).pose.Valid := (ok_new 1 one_pos).pose
  have hr := rep_new
  refine ⟨?_, ?_, ?_⟩
  · show globalsCreate.worldECam.Valid
    rw [hr.pose]; exact hv
  · show globalsCreate.worldEHome.Valid
    rw [hr.home]; exact hv
  · intro c
    show globalsCreate.camM *ᵥ hom (qutrTf globalsCreate.worldECam c) = hom c
    rw [hr.cam, hr.pose]; exact cam_hom hv rfl

/-- Up, then down again. -/
example (m : Mods) (hm : m.ctrl = false) (c : V3) :
    qutrTf (events start [(m, .key .kp8), (m, .key .kp2)]).G.worldECam c =
      qutrTf start.G.worldECam c :=
  C108_undo start _ [(1 / 10, 0), (-(1 / 10), 0)] start_valid.1 start_valid.2.1
    (by
      have h := (C108_event start m (.key .kp8) start_valid.1 start_valid.2.1).2.2.2.2.1
      simp only [effects, effect, hm, h]; rfl) (by simp) (by simp) c

/-- A drag over two points and back. -/
example (m : Mods) (c : V3) :
    qutrTf (events start [(m, .down 3 4), (m, .motion 10 20 true false),
      (m, .motion 3 4 true false)]).G.worldECam c = qutrTf start.G.worldECam c := by
  have := C108_drag start m 3 4 [(m, 10, 20, false), (m, 3, 4, false)] start_valid.1
    start_valid.2.1
  simp only [lastPos, List.foldl_cons, List.foldl_nil, List.map_cons, List.map_nil] at this
  norm_num at this
  exact orbit_closed this start_valid.1 c

end Verif.SdlCam
