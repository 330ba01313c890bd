import Verif.Model.TfConv
import Mathlib.Data.Matrix.Mul
import Mathlib.LinearAlgebra.Matrix.Notation

/-!
# Model: camera of a view (src/amino_gl.c)

`GLfloat` and `double` are `ℝ`.  The arrays of 16 numbers are column major 4×4 matrices.
-/

namespace Verif.Gl

open Verif.Tf

abbrev Mat4 := Matrix (Fin 4) (Fin 4) ℝ

/-- src/amino_gl.c:130-147 `aa_gl_tfmat2glmat`. -/
def tfmat2glmat (T : Tfm) : Mat4 :=
  !![T.R.m0, T.R.m3, T.R.m6, T.v.x;
     T.R.m1, T.R.m4, T.R.m7, T.v.y;
     T.R.m2, T.R.m5, T.R.m8, T.v.z;
     0, 0, 0, 1]

/-- src/amino_gl.c:149-164 `aa_gl_mat_perspective`.  The divisions by zero (`aspect = 0`,
`fovy = 0`, `zfar = znear`) yield infinities in the code; the theorems exclude them. -/
noncomputable def matPerspective (fovy aspect znear zfar : ℝ) : Mat4 :=
  let t := Real.tan (fovy / 2)
  !![1 / (aspect * t), 0, 0, 0;
     0, 1 / t, 0, 0;
     0, 0, -(zfar + znear) / (zfar - znear), -(2 * zfar * znear) / (zfar - znear);
     0, 0, -1, 0]

/-- The members for the camera (include/amino/rx/scene_gl_internal.h:45-70): `world_E_cam`,
`world_E_camhome`, `cam_M_world`, `world_v_cam` and the perspective. -/
structure Globals where
  worldECam : Qutr
  worldEHome : Qutr
  camM : Mat4
  worldVCam : V3
  fovy : ℝ
  aspect : ℝ
  znear : ℝ
  zfar : ℝ
  persp : Mat4

/-- src/amino_gl.c:1561-1578 `aa_gl_globals_set_camera`. -/
noncomputable def setCamera (G : Globals) (E : Qutr) : Globals :=
  { G with worldVCam := E.v, worldECam := E, camM := tfmat2glmat (tfmInv (qutr2tfmat E)) }

/-- src/amino_gl.c:1580-1587 `aa_gl_globals_set_camera_home`. -/
def setCameraHome (G : Globals) (E : Qutr) : Globals := { G with worldEHome := E }

/-- src/amino_gl.c:1589-1594 `aa_gl_globals_home_camera`. -/
noncomputable def homeCamera (G : Globals) : Globals := setCamera G G.worldEHome

/-- src/amino_gl.c:1610-1623 `aa_gl_globals_set_aspect`.  The ones it first puts on the
diagonal are overwritten by `aa_gl_mat_perspective`, which clears the matrix. -/
noncomputable def setAspect (G : Globals) (aspect : ℝ) : Globals :=
  { G with aspect := aspect, persp := matPerspective G.fovy aspect G.znear G.zfar }

/-- src/amino_gl.c:1596-1608 `aa_gl_globals_set_perspective`. -/
noncomputable def setPerspective (G : Globals) (fovy aspect znear zfar : ℝ) : Globals :=
  setAspect { G with fovy := fovy, znear := znear, zfar := zfar } aspect

/-- src/amino_gl.c:1511-1553 `aa_gl_globals_create`: the camera.  `AA_NEW0` clears the members. -/
noncomputable def globalsCreate : Globals :=
  let zero : Qutr := ⟨⟨0, 0, 0, 0⟩, ⟨0, 0, 0⟩⟩
  let G : Globals := ⟨zero, zero, 0, ⟨0, 0, 0⟩, 0, 0, 0, 0, 0⟩
  let G := setCameraHome G (qutrMzlook ⟨2, 2, 2⟩ ⟨0, 0, 0⟩ ⟨0, 0, 1⟩)
  let G := homeCamera G
  setPerspective G (Real.pi / 4) (1 / 1) (5 / 100) 100

/-- src/amino_gl.c:1691-1698: the matrix `M_c` of `aa_rx_sg_render`. -/
noncomputable def renderMat (G : Globals) : Mat4 := G.persp * G.camM

/-- Calls for the camera. -/
inductive CamOp
  | setCamera (E : Qutr)
  | setHome (E : Qutr)
  | home
  | setAspect (aspect : ℝ)
  | setPerspective (fovy aspect znear zfar : ℝ)

/-- One call. -/
noncomputable def camStep (G : Globals) : CamOp → Globals
  | .setCamera E => setCamera G E
  | .setHome E => setCameraHome G E
  | .home => homeCamera G
  | .setAspect a => setAspect G a
  | .setPerspective f a n z => setPerspective G f a n z

/-- A history. -/
noncomputable def camRun (os : List CamOp) : Globals := os.foldl camStep globalsCreate

end Verif.Gl
