/-! Lifetimes of meshes, geometry objects, scene graphs and plugins (src/rx/scene_geom.c,
src/rx/plugin.c, and the destructors of src/rx/scenegraph.cpp), in one thread.  Objects are numbered in
the order of their creation; contents of arrays are opaque numbers.  Frames are kept in one list for all
graphs, with the graph that they belong to. -/

namespace Verif.Life

/-- Outcome of a call: undefined behaviour (use of released memory, releasing it again, a null pointer)
and `abort()` are told apart. -/
inductive Out (α : Type) where
  | ok (a : α)
  | ub
  | abort

def Out.bind {α β : Type} (x : Out α) (f : α → Out β) : Out β :=
  match x with
  | .ok a => f a
  | .ub => .ub
  | .abort => .abort

/-- The arrays of `struct aa_rx_mesh` (include/amino/rx/scene_geom_internal.h:118-155). -/
inductive Fld where
  | vertices
  | normals
  | indices
  | uv
  | rgba
deriving DecidableEq

/-- An array pointer: `owned b` if the pointer to own data (`vertices_data` etc.) is the block `b`,
`client` if the array is the caller's, `lib p` if it is static data of the plugin `p`. -/
inductive Arr where
  | null
  | owned (b : Nat)
  | client (d : Nat)
  | lib (p d : Nat)
deriving DecidableEq

structure Mesh where
  rc : Nat
  arr : Fld → Arr
  destr : Option Nat

structure Geom where
  rc : Nat
  mesh : Option Nat
  cl : Option Nat
  gl : Option Nat

structure Frame where
  sg : Nat
  name : Nat
  geoms : List Nat

/-- `destr`: the plugin that the registered destructor closes; `lims`: limit records by configuration,
`true` for those allocated by `new`. -/
structure Sg where
  destr : Option Nat
  lims : List (Nat × Bool)

/-- `blocks` is the heap with the contents of the allocated blocks; `dead` the list `s_dead_buffers`;
`dl p` how often the plugin `p` is open. -/
structure St where
  meshes : Nat → Option Mesh
  geoms : Nat → Option Geom
  sgs : Nat → Option Sg
  frames : List Frame
  blocks : Nat → Option Nat
  dead : List Nat
  dl : Nat → Nat
  nM : Nat
  nG : Nat
  nS : Nat
  nB : Nat

def init : St :=
  ⟨fun _ => none, fun _ => none, fun _ => none, [], fun _ => none, [], fun _ => 0, 0, 0, 0, 0⟩

def upd {α : Type} (f : Nat → α) (i : Nat) (x : α) : Nat → α := fun j => if j = i then x else f j

/-- src/refcount.c:49-52, 71-78: the count after `aa_mem_ref_inc`. -/
def refInc (n : Nat) : Nat := (n + 1) % 2 ^ 32

/-- src/refcount.c:54-57, 80-87: the count after `aa_mem_ref_dec`. -/
def refDec (n : Nat) : Nat := (n + (2 ^ 32 - 1)) % 2 ^ 32

/-- `malloc`, and what is written to the block. -/
def malloc (s : St) (d : Nat) : St × Nat :=
  ({ s with blocks := upd s.blocks s.nB (some d), nB := s.nB + 1 }, s.nB)

/-- `free`. -/
def free (s : St) (b : Nat) : Out St :=
  match s.blocks b with
  | none => .ub
  | some _ => .ok { s with blocks := upd s.blocks b none }

/-- include/amino/mem.h:106-109 `aa_checked_free` on the own data of an array. -/
def freeArr (s : St) : Arr → Out St
  | .owned b => free s b
  | _ => .ok s

def freeAll (s : St) : List Arr → Out St
  | [] => .ok s
  | a :: l => (freeArr s a).bind fun s => freeAll s l

/-- src/rx/plugin.c:88-94 `plugin_destructor`. -/
def dlclose (s : St) (p : Nat) : Out St :=
  if s.dl p = 0 then .ub else .ok { s with dl := upd s.dl p (s.dl p - 1) }

/-- A registered destructor. -/
def runDestr (s : St) : Option Nat → Out St
  | none => .ok s
  | some p => dlclose s p

/-! ## Meshes -/

/-- src/rx/scene_geom.c:325-330 `aa_rx_mesh_create`. -/
def meshCreate (s : St) : St :=
  { s with meshes := upd s.meshes s.nM (some ⟨1, fun _ => .null, none⟩), nM := s.nM + 1 }

/-- src/rx/scene_geom.c:332-348 `aa_rx_mesh_destroy`. -/
def meshDestroy (s : St) (m : Nat) : Out St :=
  match s.meshes m with
  | none => .ub
  | some M =>
    if M.rc = 1 then
      (runDestr s M.destr).bind fun s =>
      (freeAll s [M.arr .vertices, M.arr .normals, M.arr .indices, M.arr .rgba, M.arr .uv]).bind fun s =>
        .ok { s with meshes := upd s.meshes m none }
    else .ok { s with meshes := upd s.meshes m (some { M with rc := refDec M.rc }) }

/-- Where the data passed to a setter comes from: `copy` is the argument of that name. -/
inductive Src where
  | copy (d : Nat)
  | client (d : Nat)
deriving DecidableEq

def setArr (M : Mesh) (f : Fld) (a : Arr) : Mesh :=
  { M with arr := fun g => if g = f then a else M.arr g }

/-- src/rx/scene_geom.c:352-388 `aa_rx_mesh_set_vertices`, `_normals`, `_uv`, `_indices`; 404-421
`aa_rx_mesh_set_rgba`. -/
def meshSet (s : St) (m : Nat) (f : Fld) (src : Src) : Out St :=
  match s.meshes m with
  | none => .ub
  | some M =>
    (freeArr s (M.arr f)).bind fun s =>
      match src with
      | .copy d => .ok { (malloc s d).1 with meshes := upd s.meshes m (some (setArr M f (.owned s.nB))) }
      | .client d => .ok { s with meshes := upd s.meshes m (some (setArr M f (.client d))) }

/-- src/rx/scene_geom.c:423-435 `aa_rx_mesh_set_texture`: `d` are the four bytes of the color, 0 the
zeros of the texture coordinates.  The old coordinates are not released. -/
def meshTexture (s : St) (m d : Nat) : Out St :=
  (meshSet s m .rgba (.copy d)).bind fun s =>
    match s.meshes m with
    | none => .ub
    | some M => .ok { (malloc s 0).1 with meshes := upd s.meshes m (some (setArr M .uv (.owned s.nB))) }

/-- src/rx/plugin.c:96-113 `aa_rx_dl_mesh`, with a function generated by lisp/rx/sg-gen.lisp:222-252:
the arrays are static data of the plugin. -/
def dlMesh (s : St) (p d : Nat) : St :=
  { s with meshes := upd s.meshes s.nM (some ⟨1, fun _ => .lib p d, some p⟩), nM := s.nM + 1,
           dl := upd s.dl p (s.dl p + 1) }

/-! ## Geometry objects -/

/-- src/rx/scene_geom.c:56-61 `ALLOC_GEOM`. -/
def geomNew (s : St) (m : Option Nat) : St :=
  { s with geoms := upd s.geoms s.nG (some ⟨1, m, none, none⟩), nG := s.nG + 1 }

/-- src/rx/scene_geom.c:147-157 `aa_rx_geom_mesh`. -/
def geomMesh (s : St) (m : Nat) : Out St :=
  match s.meshes m with
  | none => .ub
  | some M => .ok (geomNew { s with meshes := upd s.meshes m (some { M with rc := refInc M.rc }) } (some m))

/-- src/rx/scene_geom.c:168-177 `aa_rx_geom_copy`. -/
def geomCopy (s : St) (g : Nat) : Out St :=
  match s.geoms g with
  | none => .ub
  | some G =>
    if G.rc = 0 then .abort
    else .ok { s with geoms := upd s.geoms g (some { G with rc := refInc G.rc }) }

/-- src/rx/scene_geom.c:179-241 `aa_rx_geom_modify_opt`: a new object of the same shape. -/
def geomModify (s : St) (g : Nat) : Out St :=
  match s.geoms g with
  | none => .ub
  | some G =>
    match G.mesh with
    | none => .ok (geomNew s none)
    | some m => geomMesh s m

/-- src/rx/amino_fcl.cpp:143-215 `cl_init_helper`: the collision object is made once. -/
def clInit (s : St) (g : Nat) : Out St :=
  match s.geoms g with
  | none => .ub
  | some G =>
    match G.cl with
    | some _ => .ok s
    | none => .ok { (malloc s 0).1 with geoms := upd s.geoms g (some { G with cl := some s.nB }) }

/-- src/amino_gl.c:1447-1451 `aa_geom_gl_buffers_init`: the buffers are made once. -/
def glInit (s : St) (g : Nat) : Out St :=
  match s.geoms g with
  | none => .ub
  | some G =>
    match G.gl with
    | some _ => .ok s
    | none => .ok { (malloc s 0).1 with geoms := upd s.geoms g (some { G with gl := some s.nB }) }

/-- src/rx/scene_geom.c:260-262: collision objects are deleted at once. -/
def freeCl (s : St) : Option Nat → Out St
  | none => .ok s
  | some b => free s b

/-- src/amino_gl.c:552-559 `aa_gl_buffers_schedule_destroy`. -/
def schedule (s : St) : Option Nat → St
  | none => s
  | some b => { s with dead := b :: s.dead }

/-- src/amino_gl.c:561-578 `aa_gl_buffers_cleanup`. -/
def cleanup (s : St) : Out St :=
  freeAll { s with dead := [] } (s.dead.map .owned)

/-- src/rx/scene_geom.c:254-258: the mesh of the object is released. -/
def freeMesh (s : St) : Option Nat → Out St
  | none => .ok s
  | some m => meshDestroy s m

/-- src/rx/scene_geom.c:243-271 `aa_rx_geom_destroy`.  The object itself is released last; nothing in
between looks at it. -/
def geomDestroy (s : St) (g : Nat) : Out St :=
  match s.geoms g with
  | none => .ub
  | some G =>
    if G.rc = 0 then .abort
    else if G.rc = 1 then
      (freeMesh { s with geoms := upd s.geoms g none } G.mesh).bind fun s =>
      (freeCl s G.cl).bind fun s => .ok (schedule s G.gl)
    else .ok { s with geoms := upd s.geoms g (some { G with rc := refDec G.rc }) }

/-! ## Scene graphs -/

def isAt (s f : Nat) (F : Frame) : Bool := F.sg == s && F.name == f

/-- Append geometry to a frame. -/
def push (s f : Nat) (gs : List Nat) : List Frame → List Frame
  | [] => []
  | F :: l => if isAt s f F then { F with geoms := F.geoms ++ gs } :: l else F :: push s f gs l

/-- src/rx/scenegraph.cpp:76-86 `~SceneFrame`: the loop. -/
def destroyAll (s : St) : List Nat → Out St
  | [] => .ok s
  | g :: l => (geomDestroy s g).bind fun s => destroyAll s l

def copyAll (s : St) : List Nat → Out St
  | [] => .ok s
  | g :: l => (geomCopy s g).bind fun s => copyAll s l

/-- src/rx/sg_api.cpp:49-54 `aa_rx_sg_create`. -/
def sgCreate (s : St) : St := { s with sgs := upd s.sgs s.nS (some ⟨none, []⟩), nS := s.nS + 1 }

/-- src/rx/sg_api.cpp:197-211 `aa_rx_sg_rm_frame`. -/
def rmFrame (s : St) (sg f : Nat) : Out St :=
  match s.sgs sg with
  | none => .ub
  | some _ =>
    destroyAll { s with frames := s.frames.filter fun F => ! isAt sg f F }
      ((s.frames.filter (isAt sg f)).flatMap (·.geoms))

/-- src/rx/scenegraph.cpp:379-391 `SceneGraph::add`: a frame of the same name is deleted. -/
def addFrame (s : St) (sg f : Nat) : Out St :=
  (rmFrame s sg f).bind fun s => .ok { s with frames := ⟨sg, f, []⟩ :: s.frames }

/-- src/rx/scenegraph.cpp:411-418 `aa_rx_sg_add_geom`; src/rx/scene_geom.c:159-166
`aa_rx_geom_attach`.  A missing frame is a null pointer. -/
def attach (s : St) (sg f g : Nat) : Out St :=
  match s.sgs sg with
  | none => .ub
  | some _ =>
    if s.frames.any (isAt sg f) then .ok { s with frames := push sg f [g] s.frames } else .ub

/-- src/rx/scenegraph.cpp:396-409 `aa_rx_sg_copy_frame_geom`.  With the same frame twice the loop
appends to the vector that it runs over. -/
def copyFrameGeom (s : St) (sg f1 f2 : Nat) : Out St :=
  match s.sgs sg with
  | none => .ub
  | some _ =>
    let gs := (s.frames.filter (isAt sg f1)).flatMap (·.geoms)
    if s.frames.any (isAt sg f1) && s.frames.any (isAt sg f2) && (f1 != f2 || gs.isEmpty) then
      (copyAll s gs).bind fun s => .ok { s with frames := push sg f2 gs s.frames }
    else .ub

/-- src/rx/sg_api.cpp:549-560: a limit record is made when it is first needed. -/
def setLimit (s : St) (sg c : Nat) : Out St :=
  match s.sgs sg with
  | none => .ub
  | some S =>
    if S.lims.any (·.1 == c) then .ok s
    else .ok { s with sgs := upd s.sgs sg (some { S with lims := (c, false) :: S.lims }) }

/-- src/rx/sg_api.cpp:739-811 `aa_rx_sg_copy` of an indexed graph: new frames share the geometry
objects, limit records are made by `new`, the destructor is not copied. -/
def sgCopy (s : St) (sg : Nat) : Out St :=
  match s.sgs sg with
  | none => .ub
  | some S =>
    let fs := s.frames.filter (·.sg == sg)
    (copyAll s (fs.flatMap (·.geoms))).bind fun s =>
      .ok { s with sgs := upd s.sgs s.nS (some ⟨none, S.lims.map fun l => (l.1, true)⟩), nS := s.nS + 1,
                   frames := fs.map (fun F => { F with sg := s.nS }) ++ s.frames }

/-- src/rx/scenegraph.cpp:274-286 `~SceneGraph`; src/rx/sg_api.cpp:56-60 `aa_rx_sg_destroy`.  Limit
records are released by `free`, which is undefined for those made by `new`.  The graph itself is
released last; nothing in between looks at it. -/
def sgDestroy (s : St) (sg : Nat) : Out St :=
  match s.sgs sg with
  | none => .ub
  | some S =>
    (runDestr s S.destr).bind fun s =>
    (destroyAll { s with frames := s.frames.filter (·.sg != sg), sgs := upd s.sgs sg none }
      ((s.frames.filter (·.sg == sg)).flatMap (·.geoms))).bind fun s =>
      if S.lims.any (·.2) then .ub else .ok s

/-- src/rx/plugin.c:115-134 `aa_rx_dl_sg_at`, with a function generated by lisp/rx/sg-gen.lisp:282-315
for one frame with one mesh: frame, mesh, geometry, and then the mesh is released; the destructor
registered before is overwritten. -/
def dlSg (s : St) (p d sg f : Nat) : Out St :=
  let s := { s with dl := upd s.dl p (s.dl p + 1) }
  (addFrame s sg f).bind fun s =>
  let m := s.nM
  let s := { s with meshes := upd s.meshes m (some ⟨1, fun _ => .lib p d, none⟩), nM := m + 1 }
  let g := s.nG
  (geomMesh s m).bind fun s =>
  (attach s sg f g).bind fun s =>
  (meshDestroy s m).bind fun s =>
    match s.sgs sg with
    | none => .ub
    | some S => .ok { s with sgs := upd s.sgs sg (some { S with destr := some p }) }

/-! ## Histories -/

inductive Op where
  | meshCreate
  | meshDestroy (m : Nat)
  | meshSet (m : Nat) (f : Fld) (src : Src)
  | meshTexture (m d : Nat)
  | dlMesh (p d : Nat)
  | geomPlain
  | geomMesh (m : Nat)
  | geomCopy (g : Nat)
  | geomModify (g : Nat)
  | clInit (g : Nat)
  | glInit (g : Nat)
  | geomDestroy (g : Nat)
  | cleanup
  | sgCreate
  | addFrame (sg f : Nat)
  | rmFrame (sg f : Nat)
  | attach (sg f g : Nat)
  | copyFrameGeom (sg f1 f2 : Nat)
  | setLimit (sg c : Nat)
  | sgCopy (sg : Nat)
  | sgDestroy (sg : Nat)
  | dlSg (p d sg f : Nat)

/-- One call; `geomPlain` stands for the shapes other than meshes (src/rx/scene_geom.c:65-145). -/
def step (s : St) : Op → Out St
  | .meshCreate => .ok (meshCreate s)
  | .meshDestroy m => meshDestroy s m
  | .meshSet m f src => meshSet s m f src
  | .meshTexture m d => meshTexture s m d
  | .dlMesh p d => .ok (dlMesh s p d)
  | .geomPlain => .ok (geomNew s none)
  | .geomMesh m => geomMesh s m
  | .geomCopy g => geomCopy s g
  | .geomModify g => geomModify s g
  | .clInit g => clInit s g
  | .glInit g => glInit s g
  | .geomDestroy g => geomDestroy s g
  | .cleanup => cleanup s
  | .sgCreate => .ok (sgCreate s)
  | .addFrame sg f => addFrame s sg f
  | .rmFrame sg f => rmFrame s sg f
  | .attach sg f g => attach s sg f g
  | .copyFrameGeom sg f1 f2 => copyFrameGeom s sg f1 f2
  | .setLimit sg c => setLimit s sg c
  | .sgCopy sg => sgCopy s sg
  | .sgDestroy sg => sgDestroy s sg
  | .dlSg p d sg f => dlSg s p d sg f

def run (s : St) : List Op → Out St
  | [] => .ok s
  | o :: os => (step s o).bind fun s => run s os

/-- What a reader of an array finds: `none` for memory that is released or not mapped. -/
def readArr (s : St) : Arr → Option Nat
  | .null => none
  | .owned b => s.blocks b
  | .client d => some d
  | .lib p d => if s.dl p = 0 then none else some d

end Verif.Life
