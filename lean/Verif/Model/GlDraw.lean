import Verif.Model.GlCam
import Verif.Model.GlMask

/-!
# Model: drawing a scene graph (src/amino_gl.c)

`GLfloat` and `double` are `ℝ`.  What OpenGL receives is modelled up to the vertex shader: the
triangles with, for each vertex, `gl_Position` and `normal_world`.  Colours, textures and the
fragment shader are not modelled.  `none` is undefined behaviour: an index outside of the uploaded
array, or a bit of the mask outside of the set.

Every kind of geometry is drawn as the mesh that the function for its shape makes
(src/amino_gl.c:1447-1499); here geometry refers to a mesh.  The code keeps one copy of the mesh of
a primitive shape in the buffers only, which nobody can change.
-/

namespace Verif.GlDraw

open Verif.Tf Verif.Gl

/-- `struct aa_rx_mesh` (include/amino/rx/scene_geom_internal.h): the vertices, the normals and
the indices; `indices` has three entries for each of the `n_indices` faces. -/
structure Mesh where
  verts : List V3
  normals : Option (List V3)
  indices : Option (List Nat)

/-- `struct aa_gl_buffers` (include/amino/rx/scene_gl_internal.h:88-118) with the contents of the
buffers. -/
structure Bufs where
  values : List V3
  normals : Option (List V3)
  indices : Option (List Nat)
  count : Nat

/-- src/amino_gl.c:664-735 `bind_mesh`; `n_indices` is the number of faces. -/
def bindMesh (mesh : Mesh) (size : Nat) : Bufs :=
  match mesh.indices with
  | some ix =>
    let nIndices := ix.length / 3
    ⟨mesh.verts, mesh.normals, some (ix.take (3 * nIndices)), size * nIndices⟩
  | none => ⟨mesh.verts, mesh.normals, none, mesh.verts.length⟩

/-- src/amino_gl.c:737-745 `tri_mesh`. -/
def triMesh (mesh : Mesh) : Bufs := bindMesh mesh 3

/-- Geometry: its shape, the options that matter here, and `gl_buffers`. -/
structure Geom where
  mesh : Nat
  visual : Bool
  collision : Bool
  scale : ℝ
  bufs : Option Bufs

/-- A scene graph whose indices are clean: the geometry of each frame, and `dirty_gl`. -/
structure Graph where
  frames : List (List Nat)
  dirtyGl : Bool

/-- What exists. -/
structure St where
  meshes : Nat → Mesh
  geoms : Nat → Geom
  graphs : Nat → Graph

/-- src/amino_gl.c:1447-1508 `aa_geom_gl_buffers_init`. -/
def buffersInit (s : St) (g : Nat) : St :=
  match (s.geoms g).bufs with
  | some _ => s
  | none =>
    { s with geoms := fun k => if k = g then
        { s.geoms g with bufs := some (triMesh (s.meshes (s.geoms g).mesh)) } else s.geoms k }

/-- src/amino_gl.c:1714-1730 `gl_init_helper`, `aa_rx_sg_gl_init` and `aa_rx_sg_map_geom`
(src/rx/sg_api.cpp:465-480). -/
def glInit (s : St) (a : Nat) : St :=
  if (s.graphs a).dirtyGl then
    let s := (s.graphs a).frames.flatten.foldl buffersInit s
    { s with graphs := fun k => if k = a then { s.graphs a with dirtyGl := false } else s.graphs k }
  else s

/-- A vertex behind the vertex shader. -/
structure Vert where
  position : Fin 4 → ℝ
  normal : Option V3

/-- src/amino_gl.c:188-224: the vertex shader. -/
noncomputable def shader (camera model : Mat4) (rotate : M3) (p : V3) (n : Option V3) : Vert :=
  ⟨Matrix.mulVec camera (Matrix.mulVec model ![p.x, p.y, p.z, 1]), n.map (rot9 rotate)⟩

/-- src/amino_gl.c:396-407: the matrix of the pose, without scale for the normals. -/
def rotateMat (M : Mat4) : M3 :=
  ⟨M 0 0, M 1 0, M 2 0, M 0 1, M 1 1, M 2 1, M 0 2, M 1 2, M 2 2⟩

/-- src/amino_gl.c:396-407: the upper left 3×3 block is scaled. -/
def scaleMat (M : Mat4) (scale : ℝ) : Mat4 :=
  fun i j => if i.val < 3 ∧ j.val < 3 then M i j * scale else M i j

/-- The vertices of an array that an index fetches; undefined outside of the array. -/
def fetch (b : Bufs) (i : Nat) : Option (V3 × Option V3) :=
  match b.values[i]? with
  | none => none
  | some p =>
    match b.normals with
    | none => some (p, none)
    | some ns =>
      match ns[i]? with
      | none => none
      | some n => some (p, some n)

/-- `glDrawElements` and `glDrawArrays` (src/amino_gl.c:480-497): the indices in order. -/
def elements (b : Bufs) : Option (List Nat) :=
  match b.indices with
  | some ix => if b.count ≤ ix.length then some (ix.take b.count) else none
  | none => some (List.range b.count)

/-- `GL_TRIANGLES`: three vertices each, an incomplete rest is not drawn. -/
def triangles {α : Type} : List α → List (α × α × α)
  | x :: y :: z :: l => (x, y, z) :: triangles l
  | _ => []

/-- src/amino_gl.c:378-516 `aa_gl_draw_tf`. -/
noncomputable def drawTf (camera : Mat4) (E : Qutr) (scale : ℝ) (b : Bufs) :
    Option (List (Vert × Vert × Vert)) :=
  let M := tfmat2glmat (qutr2tfmat E)
  match elements b with
  | none => none
  | some ix =>
    match ix.mapM (fetch b) with
    | none => none
    | some vs =>
      some (triangles (vs.map (fun pn => shader camera (scaleMat M scale) (rotateMat M) pn.1 pn.2)))

/-- The members of the globals that matter here (include/amino/rx/scene_gl_internal.h:45-85). -/
structure View where
  cam : Globals
  mask : GlMask.St
  showVisual : Bool
  showCollision : Bool

/-- src/amino_gl.c:1640-1652 `render_helper`. -/
noncomputable def renderHelper (s : St) (v : View) (TF : Nat → Qutr) (f g : Nat) :
    Option (List (Vert × Vert × Vert)) :=
  match (s.geoms g).bufs with
  | none => some []
  | some b =>
    match GlMask.isMasked v.mask f with
    | none => none
    | some m =>
      if m = 0 ∧ ((v.showVisual = true ∧ (s.geoms g).visual = true) ∨
          (v.showCollision = true ∧ (s.geoms g).collision = true)) then
        drawTf (renderMat v.cam) (TF f) (s.geoms g).scale b
      else some []

/-- The frames of a graph with their geometry, in the order of `aa_rx_sg_map_geom`
(src/rx/sg_api.cpp:465-480). -/
def pairs (k : Nat) : List (List Nat) → List (Nat × Nat)
  | [] => []
  | gs :: fs => gs.map (fun g => (k, g)) ++ pairs (k + 1) fs

/-- src/amino_gl.c:1654-1712 `aa_rx_sg_render`: the new state and the picture. -/
noncomputable def render (s : St) (v : View) (TF : Nat → Qutr) (a : Nat) :
    St × Option (List (Vert × Vert × Vert)) :=
  let s := glInit s a
  (s, ((pairs 0 (s.graphs a).frames).mapM (fun p => renderHelper s v TF p.1 p.2)).map List.flatten)

/-- Calls on meshes, geometry and graphs. -/
inductive Op
  /-- The setters of a mesh (src/rx/scene_geom.c:350-390), also for a new one. -/
  | setMesh (m : Nat) (mesh : Mesh)
  /-- Geometry is created (src/rx/scene_geom.c:55-70): no buffers. -/
  | newGeom (g m : Nat) (visual collision : Bool) (scale : ℝ)
  /-- A graph of `n` frames without geometry; the constructor leaves `dirty_gl` as it is found. -/
  | newGraph (a n : Nat) (junk : Bool)
  /-- `aa_rx_geom_attach` and `aa_rx_sg_add_geom` (src/rx/scenegraph.cpp:411-418). -/
  | attach (a f g : Nat)
  /-- `aa_rx_sg_copy_frame_geom` (src/rx/scenegraph.cpp:396-409). -/
  | copyFrameGeom (a src dst : Nat)
  /-- `aa_rx_sg_copy` (src/rx/sg_api.cpp:740-811): the copy refers to the same geometry. -/
  | copy (a b : Nat) (junk : Bool)
  /-- `aa_rx_sg_render`. -/
  | draw (v : View) (TF : Nat → Qutr) (a : Nat)

/-- A graph is stored. -/
def St.setGraph (s : St) (a : Nat) (x : Graph) : St :=
  { s with graphs := fun k => if k = a then x else s.graphs k }

/-- One call. -/
noncomputable def step (s : St) : Op → St
  | .setMesh m mesh => { s with meshes := fun k => if k = m then mesh else s.meshes k }
  | .newGeom g m visual collision scale =>
    { s with geoms := fun k => if k = g then ⟨m, visual, collision, scale, none⟩ else s.geoms k }
  | .newGraph a n junk => s.setGraph a ⟨List.replicate n [], junk⟩
  | .attach a f g =>
    s.setGraph a ⟨(s.graphs a).frames.modify f (fun gs => gs ++ [g]), true⟩
  | .copyFrameGeom a src dst =>
    s.setGraph a
      ⟨(s.graphs a).frames.modify dst (fun gs => gs ++ ((s.graphs a).frames[src]?).getD []), true⟩
  | .copy a b junk =>
    s.setGraph b ⟨(s.graphs a).frames, if (s.graphs a).frames.flatten.isEmpty then junk else true⟩
  | .draw v TF a => (render s v TF a).1

/-- Nothing exists: the contents are arbitrary, no graph has frames. -/
def init (meshes : Nat → Mesh) (geoms : Nat → Geom) : St :=
  ⟨meshes, fun g => { geoms g with bufs := none }, fun _ => ⟨[], false⟩⟩

/-- A history. -/
noncomputable def run (s : St) (os : List Op) : St := os.foldl step s

end Verif.GlDraw
