import Mathlib.Data.Real.Basic

/-!
# Contexts of inverse kinematics (src/rx/scene_ik.c)

`none` stands for undefined behaviour (an array of length zero, an element that does not exist) or for
the abort of the size check in `aa_dvec_copy` (src/mat.c `aa_la_fail_size`). Forward kinematics is an
arbitrary function of the configuration of the whole scene (modelled elsewhere); allocation is not
modelled.
-/

namespace Verif.IkCx

/-- What the context knows of the sub-scenegraph and its scene: how many variables the scene has, which
of them the sub-scenegraph has, its end effectors and centered configuration, how many frames the scene
has, the frame of a name (`AA_RX_FRAME_NONE` = -2 if there is none), the pose of each frame for a
configuration of the scene. -/
structure Scene (P : Type) where
  nAll : Nat
  ids : List Nat
  ees : List Int
  center : List ℝ
  nFrames : Nat
  frameId : String → Int
  fkOf : List ℝ → Nat → P

/-- include/amino/rx/scene_ik_internal.h:165-181 `struct aa_rx_ik_cx`. -/
structure Cx (P : Type) where
  frames : List Int
  start : List ℝ
  seed : List ℝ
  tf : Nat → P
  fk : Nat → P
  restart : ℝ

variable {P : Type}

/-- src/rx/scene_ik.c:137-141 `aa_rx_ik_set_seed`, with the size check of `aa_dvec_copy`. -/
def setSeed (cx : Cx P) (q : List ℝ) : Option (Cx P) :=
  if q.length ≠ cx.seed.length then none else some { cx with seed := q }

/-- src/rx/scene_ik.c:144-152 `aa_rx_ik_set_seed_center`: an array of the length of the seed. -/
def seedCenter (s : Scene P) (cx : Cx P) : Option (Cx P) :=
  if cx.seed.length = 0 then none else setSeed cx s.center

/-- src/rx/scene_ik.c:129-135 `aa_rx_ik_set_start`, with the size check of `aa_dvec_copy`. -/
def setStart (s : Scene P) (cx : Cx P) (q : List ℝ) : Option (Cx P) :=
  if q.length ≠ cx.start.length then none
  else some { cx with start := q, tf := s.fkOf q, fk := s.fkOf q }

/-- src/rx/scene_ik.c:67-72 `s_set_frames`. -/
def setFrames (cx : Cx P) (f : List Int) : Cx P := { cx with frames := f }

/-- src/rx/scene_ik.c:74-104 `aa_rx_ik_cx_create`; `frame` is that of the parameters, `old` what is in the
new memory of the seed. -/
def create (s : Scene P) (frame : Int) (old : List ℝ) : Option (Cx P) :=
  let z := List.replicate s.nAll 0
  let cx : Cx P := ⟨if frame = -2 then s.ees else [frame], z, old, s.fkOf z, s.fkOf z, 0⟩
  seedCenter s cx

/-- Calls on a context; the last two are stores through what `aa_rx_ik_get_start` and
`aa_rx_ik_get_seed` return (src/rx/scene_ik.c:117-127). -/
inductive Op
  | setStart (q : List ℝ)
  | setSeed (q : List ℝ)
  | seedCenter
  | seedRand (r : List ℝ)
  | frameName (n : String)
  | frameId (i : Int)
  | restart (t : ℝ)
  | writeStart (i : Nat) (v : ℝ)
  | writeSeed (i : Nat) (v : ℝ)

/-- src/rx/scene_ik.c:117-185. `seedRand` gives the configuration that has been drawn. -/
noncomputable def step (s : Scene P) (cx : Cx P) : Op → Option (Cx P)
  | .setStart q => IkCx.setStart s cx q
  | .setSeed q => IkCx.setSeed cx q
  | .seedCenter => IkCx.seedCenter s cx
  | .seedRand r => IkCx.setSeed cx r
  | .frameName n => some (setFrames cx [s.frameId n])
  | .frameId i => some (setFrames cx [i])
  | .restart t => some { cx with restart := t }
  | .writeStart i v => if i < cx.start.length then some { cx with start := cx.start.set i v } else none
  | .writeSeed i v => if i < cx.seed.length then some { cx with seed := cx.seed.set i v } else none

noncomputable def run (s : Scene P) : Cx P → List Op → Option (Cx P)
  | cx, [] => some cx
  | cx, o :: os => (step s cx o).bind fun cx => run s cx os

/-- src/rx/scene_ik.c:187-216 `s_kin_solve_cx_alloc`: the frame, the poses and the configuration of the
scene and of the sub-scenegraph with which `aa_rx_ik_solve` starts. -/
structure Kin (P : Type) where
  frame : Int
  fk : Nat → P
  qAll : List ℝ
  qSub : List ℝ

def kin (s : Scene P) (cx : Cx P) : Option (Kin P) :=
  (cx.frames[0]?).map fun f =>
    ⟨f, cx.fk, (s.ids.zip cx.seed).foldl (fun q iv => q.set iv.1 iv.2) cx.start, cx.seed⟩

/-- src/rx/sg_api.cpp:890-894 `aa_rx_fk_ref`, then read, as in src/rx/ik_jacobian.c:95 and
src/rx/scene_ik.c:402, 419: the pose of the frame that is solved for. -/
def pose (s : Scene P) (k : Kin P) : Option P :=
  if 0 ≤ k.frame ∧ k.frame < s.nFrames then some (k.fk k.frame.toNat) else none

end Verif.IkCx
