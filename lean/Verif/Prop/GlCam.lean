import Verif.Model.GlCam
import Verif.Prop.Frames

/-!
# C84: the camera matrix shows what the camera sees
-/

namespace Verif.Gl

open Verif.Tf Matrix

/-! ## Specification -/

/-- The camera in force: its pose in the world, the home pose and the shape of the frustum. -/
structure View where
  pose : Qutr
  home : Qutr
  fovy : ℝ
  aspect : ℝ
  znear : ℝ
  zfar : ℝ

/-- The camera of a new view: at (2, 2, 2), looking at the origin with the z axis up. -/
noncomputable def View.new : View :=
  ⟨qutrMzlook ⟨2, 2, 2⟩ ⟨0, 0, 0⟩ ⟨0, 0, 1⟩, qutrMzlook ⟨2, 2, 2⟩ ⟨0, 0, 0⟩ ⟨0, 0, 1⟩,
    Real.pi / 4, 1, 5 / 100, 100⟩

/-- The effect of a call. -/
def View.next (V : View) : CamOp → View
  | .setCamera E => { V with pose := E }
  | .setHome E => { V with home := E }
  | .home => { V with pose := V.home }
  | .setAspect a => { V with aspect := a }
  | .setPerspective f a n z => { V with fovy := f, aspect := a, znear := n, zfar := z }

/-- The camera after a history of calls. -/
noncomputable def view (os : List CamOp) : View := os.foldl View.next View.new

/-- A proper camera. -/
structure View.Ok (V : View) : Prop where
  pose : V.pose.Valid
  fovy : 0 < V.fovy ∧ V.fovy < Real.pi
  aspect : 0 < V.aspect
  near : 0 < V.znear
  far : V.znear < V.zfar

/-- The frustum of the camera that looks along its negative z axis, in camera coordinates. -/
def InFrustum (V : View) (c : V3) : Prop :=
  V.znear ≤ -c.z ∧ -c.z ≤ V.zfar ∧ |c.y| ≤ -c.z * Real.tan (V.fovy / 2) ∧
    |c.x| ≤ V.aspect * (-c.z * Real.tan (V.fovy / 2))

/-- Homogeneous coordinates of a point. -/
def hom (p : V3) : Fin 4 → ℝ := ![p.x, p.y, p.z, 1]

/-- The clip volume of OpenGL. -/
def InClip (u : Fin 4 → ℝ) : Prop := 0 < u 3 ∧ |u 0| ≤ u 3 ∧ |u 1| ≤ u 3 ∧ |u 2| ≤ u 3

/-! ## Lemmas -/

theorem tfmat2glmat_hom (T : Tfm) (p : V3) : tfmat2glmat T *ᵥ hom p = hom (tfmTf T p) := by
  funext i
  fin_cases i <;> simp [tfmat2glmat, hom, tfmTf, Matrix.mulVec, dotProduct, Fin.sum_univ_four] <;> ring

/-- What the matrices of the globals are. -/
structure Rep (G : Globals) (V : View) : Prop where
  cam : G.camM = tfmat2glmat (tfmInv (qutr2tfmat V.pose))
  pose : G.worldECam = V.pose
  pos : G.worldVCam = V.pose.v
  home : G.worldEHome = V.home
  persp : G.persp = matPerspective V.fovy V.aspect V.znear V.zfar
  fovy : G.fovy = V.fovy
  znear : G.znear = V.znear
  zfar : G.zfar = V.zfar

theorem rep_step {G : Globals} {V : View} (h : Rep G V) (o : CamOp) : Rep (camStep G o) (V.next o) := by
  obtain ⟨h1, h2, h0, h3, h4, h5, h6, h7⟩ := h
  cases o with
  | setCamera E => exact ⟨rfl, rfl, rfl, h3, h4, h5, h6, h7⟩
  | setHome E => exact ⟨h1, h2, h0, rfl, h4, h5, h6, h7⟩
  | home =>
    refine ⟨?_, h3, ?_, h3, h4, h5, h6, h7⟩
    on_goal 2 => exact congrArg Qutr.v h3
    show tfmat2glmat (tfmInv (qutr2tfmat G.worldEHome)) = _
    rw [h3]; rfl
  | setAspect a =>
    refine ⟨h1, h2, h0, h3, ?_, h5, h6, h7⟩
    show matPerspective G.fovy a G.znear G.zfar = _
    rw [h5, h6, h7]; rfl
  | setPerspective f a n z => exact ⟨h1, h2, h0, h3, rfl, rfl, rfl, rfl⟩

theorem rep_new : Rep globalsCreate View.new := by
  refine ⟨rfl, rfl, rfl, rfl, ?_, rfl, rfl, rfl⟩
  show matPerspective (Real.pi / 4) (1 / 1) (5 / 100) 100 = _
  rw [div_one]; rfl

theorem rep_run (os : List CamOp) : Rep (camRun os) (view os) := by
  have key : ∀ (os : List CamOp) (G : Globals) (V : View), Rep G V →
      Rep (os.foldl camStep G) (os.foldl View.next V) := by
    intro os
    induction os with
    | nil => intro G V h; exact h
    | cons o os ih => intro G V h; exact ih _ _ (rep_step h o)
  exact key os _ _ rep_new

/-- The clip coordinates of a point in camera coordinates. -/
theorem persp_hom (f a n z : ℝ) (c : V3) : matPerspective f a n z *ᵥ hom c =
    ![1 / (a * Real.tan (f / 2)) * c.x, 1 / Real.tan (f / 2) * c.y,
      -(z + n) / (z - n) * c.z + -(2 * z * n) / (z - n), -c.z] := by
  funext i
  fin_cases i <;> simp [matPerspective, hom, Matrix.mulVec, dotProduct, Fin.sum_univ_four]

theorem tan_half_pos {f : ℝ} (h : 0 < f ∧ f < Real.pi) : 0 < Real.tan (f / 2) :=
  Real.tan_pos_of_pos_of_lt_pi_div_two (by linarith [h.1]) (by linarith [h.2])

theorem inClip_iff {V : View} (h : V.Ok) (c : V3) :
    InClip (matPerspective V.fovy V.aspect V.znear V.zfar *ᵥ hom c) ↔ InFrustum V c := by
  have ht := tan_half_pos h.fovy
  have ha := h.aspect
  have hn := h.near
  have hf := h.far
  rw [persp_hom]
  unfold InClip InFrustum
  obtain ⟨t, ht'⟩ : ∃ t, t = Real.tan (V.fovy / 2) := ⟨_, rfl⟩
  rw [← ht'] at ht ⊢
  obtain ⟨x, y, z⟩ := c
  simp only [Matrix.cons_val_zero, Matrix.cons_val_one, Matrix.cons_val]
  have hd : 0 < V.zfar - V.znear := by linarith
  have e1 : |1 / (V.aspect * t) * x| ≤ -z ↔ |x| ≤ V.aspect * (-z * t) := by
    rw [abs_mul, abs_of_pos (by positivity : 0 < 1 / (V.aspect * t)), one_div_mul_eq_div,
      div_le_iff₀ (by positivity)]
    constructor <;> intro h <;> nlinarith
  have e2 : |1 / t * y| ≤ -z ↔ |y| ≤ -z * t := by
    rw [abs_mul, abs_of_pos (by positivity : 0 < 1 / t), one_div_mul_eq_div, div_le_iff₀ ht]
  have e3 : ∀ w, -(V.zfar + V.znear) / (V.zfar - V.znear) * w + -(2 * V.zfar * V.znear) /
      (V.zfar - V.znear) = -((V.zfar + V.znear) * w + 2 * V.zfar * V.znear) / (V.zfar - V.znear) := by
    intro w; field_simp; ring
  rw [e1, e2, e3, abs_le (a := _ / _)]
  have e4 : -((V.zfar + V.znear) * z + 2 * V.zfar * V.znear) / (V.zfar - V.znear) ≤ -z ↔
      -z ≤ V.zfar := by
    rw [div_le_iff₀ hd]
    constructor
    · intro h
      by_contra hc
      push Not at hc
      nlinarith
    · intro h
      nlinarith
  have e5 : - -z ≤ -((V.zfar + V.znear) * z + 2 * V.zfar * V.znear) / (V.zfar - V.znear) ↔
      V.znear ≤ -z := by
    rw [le_div_iff₀ hd]
    constructor
    · intro h
      by_contra hc
      push Not at hc
      nlinarith
    · intro h
      nlinarith
  rw [e4, e5]
  constructor
  · rintro ⟨-, h1, h2, h3, h4⟩
    exact ⟨h3, h4, h2, h1⟩
  · rintro ⟨h1, h2, h3, h4⟩
    exact ⟨by linarith, h4, h3, h1, h2⟩

/-- The camera's matrix takes a point from the world to the camera. -/
theorem cam_hom {E : Qutr} (hE : E.Valid) {c p : V3} (h : qutrTf E c = p) :
    tfmat2glmat (tfmInv (qutr2tfmat E)) *ᵥ hom p = hom c := by
  rw [tfmat2glmat_hom]
  congr 1
  rw [← (C26_inverse E hE).2, C26_point.1, ← h, ← C26_point.1, ← C26_point.1, (C26_inverse E hE).2]
  have hv : (qutr2tfmat E).Valid := (C26_conversions.1 E hE).2
  have e := ((C27_tfm (qutr2tfmat E) tfmident tfmident).2.2.2.1 hv).2
  have hm : tfmTf (tfmMul (tfmInv (qutr2tfmat E)) (qutr2tfmat E)) c =
      tfmTf (tfmInv (qutr2tfmat E)) (tfmTf (qutr2tfmat E) c) := by
    simp only [tfmTf, tfmMul, mul9, V3.mk.injEq]
    refine ⟨?_, ?_, ?_⟩ <;> ring
  rw [← hm, e]
  simp [tfmTf, tfmident, m3ident]

theorem render_hom {os : List CamOp} (h : (view os).pose.Valid) {c p : V3}
    (hp : qutrTf (view os).pose c = p) :
    renderMat (camRun os) *ᵥ hom p =
      matPerspective (view os).fovy (view os).aspect (view os).znear (view os).zfar *ᵥ hom c := by
  have r := rep_run os
  rw [renderMat, r.cam, r.persp, ← Matrix.mulVec_mulVec, cam_hom h hp]

/-- A displacement in the world is one in the frame turned back. -/
theorem tfmTf_offset {R : M3} (h : IsRot R) (e a u : V3) (s : ℝ) :
    tfmTf ⟨R, e⟩ (vadd a (vscal s (rot9 (transp R) u))) = vadd (tfmTf ⟨R, e⟩ a) (vscal s u) := by
  obtain ⟨-, -, -, -, -, -, r00, r11, r22, r01, r02, r12, -⟩ := h.eqs
  obtain ⟨x, y, z⟩ := u
  simp only [tfmTf, rot9, transp, vadd, vscal, V3.mk.injEq]
  refine ⟨?_, ?_, ?_⟩
  · linear_combination s * x * r00 + s * y * r01 + s * z * r02
  · linear_combination s * x * r01 + s * y * r11 + s * z * r12
  · linear_combination s * x * r02 + s * y * r12 + s * z * r22

/-! ## C84 -/

/-- **C84**: after every history of calls that leaves a proper camera, the matrix given to the
renderer clips away exactly the points outside of the frustum of the camera.  `c` are the
coordinates in the camera of the point `p` of the world. -/
theorem C84_frustum (os : List CamOp) (h : (view os).Ok) (c p : V3)
    (hp : qutrTf (view os).pose c = p) :
    InClip (renderMat (camRun os) *ᵥ hom p) ↔ InFrustum (view os) c := by
  rw [render_hom h.pose hp]
  exact inClip_iff h c

/-- **C84**: every point of the world has coordinates in the camera. -/
theorem C84_coordinates (os : List CamOp) (h : (view os).Ok) (p : V3) :
    ∃ c, qutrTf (view os).pose c = p := by
  have hv : (qutr2tfmat (view os).pose).Valid := (C26_conversions.1 _ h.pose).2
  have e := ((C27_tfm (qutr2tfmat (view os).pose) tfmident tfmident).2.2.2.1 hv).1
  refine ⟨tfmTf (tfmInv (qutr2tfmat (view os).pose)) p, ?_⟩
  have hm : tfmTf (tfmMul (qutr2tfmat (view os).pose) (tfmInv (qutr2tfmat (view os).pose))) p =
      tfmTf (qutr2tfmat (view os).pose) (tfmTf (tfmInv (qutr2tfmat (view os).pose)) p) := by
    simp only [tfmTf, tfmMul, mul9, V3.mk.injEq]
    refine ⟨?_, ?_, ?_⟩ <;> ring
  rw [← C26_point.1, ← hm, e]
  simp [tfmTf, tfmident, m3ident]

/-- **C84**: a point in front of the camera appears on the screen at the ratio of its offset to half
of the extent of the frustum at its distance; depth is -1 on the near plane, 1 on the far plane and
grows with the distance. -/
theorem C84_screen (os : List CamOp) (h : (view os).Ok) (c p : V3)
    (hp : qutrTf (view os).pose c = p) (hz : c.z < 0) :
    let u := renderMat (camRun os) *ᵥ hom p
    let e := -c.z * Real.tan ((view os).fovy / 2)
    0 < e ∧ u 3 = -c.z ∧ u 0 / u 3 = c.x / ((view os).aspect * e) ∧ u 1 / u 3 = c.y / e ∧
      (-c.z = (view os).znear → u 2 / u 3 = -1) ∧ (-c.z = (view os).zfar → u 2 / u 3 = 1) ∧
      ∀ c' p' : V3, qutrTf (view os).pose c' = p' → -c.z < -c'.z →
        u 2 / u 3 < (renderMat (camRun os) *ᵥ hom p') 2 / (renderMat (camRun os) *ᵥ hom p') 3 := by
  have ht := tan_half_pos h.fovy
  have ha := h.aspect
  have hn := h.near
  have hf := h.far
  have hd : 0 < (view os).zfar - (view os).znear := by linarith
  have hz' : 0 < -c.z := by linarith
  dsimp only
  rw [render_hom h.pose hp, persp_hom]
  simp only [Matrix.cons_val_zero, Matrix.cons_val_one, Matrix.cons_val]
  refine ⟨mul_pos hz' ht, trivial, ?_, ?_, ?_, ?_, ?_⟩
  · have := hz.ne
    field_simp
  · have := hz.ne
    field_simp
  · intro e
    have e' : c.z = -(view os).znear := by linarith
    rw [e', neg_neg]
    field_simp
    ring
  · intro e
    have e' : c.z = -(view os).zfar := by linarith
    have : (view os).zfar ≠ 0 := by linarith
    rw [e', neg_neg]
    field_simp
    ring
  · intro c' p' hp' hlt
    rw [render_hom h.pose hp', persp_hom]
    simp only [Matrix.cons_val]
    have key : ∀ w : ℝ, w < 0 → (-((view os).zfar + (view os).znear) /
        ((view os).zfar - (view os).znear) * w + -(2 * (view os).zfar * (view os).znear) /
        ((view os).zfar - (view os).znear)) / -w = ((view os).zfar + (view os).znear) /
        ((view os).zfar - (view os).znear) - 2 * (view os).zfar * (view os).znear /
        ((view os).zfar - (view os).znear) / -w := by
      intro w hw
      have := hw.ne
      field_simp
      ring
    rw [key _ hz, key _ (by linarith)]
    have hfz : 0 < (view os).zfar := by linarith
    have : 2 * (view os).zfar * (view os).znear / ((view os).zfar - (view os).znear) / -c'.z <
        2 * (view os).zfar * (view os).znear / ((view os).zfar - (view os).znear) / -c.z :=
      div_lt_div_of_pos_left (by positivity) hz' hlt
    linarith

/-- **C84**: the position given to the shader is where the camera is. -/
theorem C84_position (os : List CamOp) :
    (camRun os).worldVCam = (view os).pose.v ∧ (camRun os).worldECam = (view os).pose :=
  ⟨(rep_run os).pos, (rep_run os).pose⟩

/-- **C84**: a camera that looks at a target shows the target in the middle of the screen, and what
is above the target (in the direction `up`) straight above the middle. -/
theorem C84_look (os : List CamOp) (h : (view os).Ok) (eye target up : V3)
    (hi : Indep up (toEye eye target)) (he : (view os).pose = qutrMzlook eye target up) :
    let u := renderMat (camRun os) *ᵥ hom target
    0 < u 3 ∧ u 0 = 0 ∧ u 1 = 0 ∧
    ∀ s, 0 < s → let w := renderMat (camRun os) *ᵥ hom (vadd target (vscal s up))
      w 0 = 0 ∧ 0 < w 1 := by
  have ht := tan_half_pos h.fovy
  obtain ⟨hr, -, hx, hy, -, htg, -, -, hq⟩ := C72_mzlook eye target up hi
  have hn := vnorm_ne hi.right
  dsimp only
  rw [render_hom h.pose (c := ⟨0, 0, -vnorm (toEye eye target)⟩) (by rw [he, hq, htg]), persp_hom]
  simp only [Matrix.cons_val_zero, Matrix.cons_val_one, Matrix.cons_val]
  refine ⟨by linarith, by simp, by simp, ?_⟩
  intro s hs
  have hc : qutrTf (view os).pose (vadd ⟨0, 0, -vnorm (toEye eye target)⟩
      (vscal s (rot9 (transp (rotmatMzlook eye target up)) up))) = vadd target (vscal s up) := by
    rw [he, hq, tfmatMzlook, tfmTf_offset hr]
    exact congrArg (vadd · (vscal s up)) htg
  rw [render_hom h.pose hc, persp_hom]
  simp only [Matrix.cons_val_zero, Matrix.cons_val_one]
  generalize rotmatMzlook eye target up = R at hx hy
  have ex : (rot9 (transp R) up).x = 0 := by
    rw [← hx]; simp only [rot9, transp, vdot]; ring
  have ey : 0 < (rot9 (transp R) up).y := by
    refine lt_of_lt_of_eq hy ?_
    simp only [rot9, transp, vdot]; ring
  simp only [vadd, vscal, ex]
  refine ⟨by simp, ?_⟩
  rw [zero_add]
  positivity

/-! ## A case -/

/-- The camera of a new view is proper, also after changes of the window. -/
theorem ok_new (a : ℝ) (ha : 0 < a) : (view [.setAspect a]).Ok := by
  have hi : Indep ⟨0, 0, 1⟩ (toEye ⟨2, 2, 2⟩ ⟨0, 0, 0⟩) := by
    intro s t h
    simp only [toEye, vadd, vscal, V3.mk.injEq] at h
    constructor <;> linarith [h.1, h.2.1, h.2.2]
  obtain ⟨-, -, -, -, -, -, -, hv, -⟩ := C72_mzlook ⟨2, 2, 2⟩ ⟨0, 0, 0⟩ ⟨0, 0, 1⟩ hi
  have := Real.pi_pos
  refine ⟨hv, ⟨?_, ?_⟩, ha, ?_, ?_⟩ <;> simp only [view, List.foldl, View.next, View.new]
  · linarith
  · linarith
  · norm_num
  · norm_num

/-- A point one unit before the camera on its axis is visible, and one behind the camera is not. -/
example (p p' : V3) (hp : qutrTf (view [.setAspect 2]).pose ⟨0, 0, -1⟩ = p)
    (hp' : qutrTf (view [.setAspect 2]).pose ⟨0, 0, 1⟩ = p') :
    InClip (renderMat (camRun [.setAspect 2]) *ᵥ hom p) ∧
      ¬ InClip (renderMat (camRun [.setAspect 2]) *ᵥ hom p') := by
  have h := ok_new 2 (by norm_num)
  have ht := tan_half_pos h.fovy
  rw [C84_frustum _ h _ _ hp, C84_frustum _ h _ _ hp']
  constructor
  · refine ⟨?_, ?_, ?_, ?_⟩
    · simp only [view, List.foldl, View.next, View.new]; norm_num
    · simp only [view, List.foldl, View.next, View.new]; norm_num
    · simpa using ht.le
    · have := h.aspect
      simp only [abs_zero, neg_neg, one_mul]
      positivity
  · rintro ⟨h1, -⟩
    have := h.near
    norm_num at h1
    linarith

end Verif.Gl
