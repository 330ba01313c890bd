import Verif.Model.SgKin
import Verif.Model.SgLim
import Verif.Model.SgCl

/-!
# Model: copying a scene graph (src/rx/sg_api.cpp:740-811)

`none` is undefined behaviour or an abort.
-/

namespace Verif.Sg

open Verif.Tf

/-- A frame object: numeric members, `inertial` (mass and inertia, null is `none`) and the list
`geometry` (include/amino/rx/scenegraph_internal.h:61-131).  `G` are the geometry objects. -/
structure Obj (G : Type) where
  body : Body
  inertial : Option (ℝ × M3)
  geoms : List G

section
variable {G K : Type}

/-- src/rx/sg_api.cpp:761-780: the new frame object, by the constructors of src/rx/scenegraph.cpp:59-151.
The configuration name is only there for a joint; the one kept here for a fixed frame has no
meaning. -/
noncomputable def copyFrame (f : Frame (Obj G)) : Frame (Obj G) :=
  { f with body :=
    ⟨mkBody f.body.body.E.q f.body.body.E.v f.body.body.offset f.body.body.axis, none, []⟩ }

/-- src/rx/sg_api.cpp:760-782: the loop that adds the new frames. -/
noncomputable def copyFrames : List (Option (Entry (Obj G))) → Graph (Obj G) → Option (Graph (Obj G))
  | [], d => some d
  | none :: _, _ => none
  | some e :: es, d => copyFrames es (add d (copyFrame e.frame))

/-- src/rx/scenegraph.cpp:411-418 `aa_rx_sg_add_geom`: the frame object is changed in place. -/
def addGeom (d : Graph (Obj G)) (n : String) (x : G) : Option (Graph (Obj G)) :=
  match find d.map n with
  | none => none
  | some f =>
    some { d with map := mapPut d.map { f with body := { f.body with geoms := f.body.geoms ++ [x] } } }

/-- src/rx/sg_api.cpp:475-477: the geometries of one frame. -/
def addGeoms (n : String) : List G → Graph (Obj G) → Option (Graph (Obj G))
  | [], d => some d
  | x :: xs, d =>
    match addGeom d n x with
    | none => none
    | some d => addGeoms n xs d

/-- src/rx/sg_api.cpp:465-480 `aa_rx_sg_map_geom` with `sg_copy_geom` (745-752): `aa_rx_geom_copy`
returns its argument with one more reference. -/
def copyGeoms : List (Option (Entry (Obj G))) → Graph (Obj G) → Option (Graph (Obj G))
  | [], d => some d
  | none :: _, _ => none
  | some e :: es, d =>
    match addGeoms e.frame.name e.frame.body.geoms d with
    | none => none
    | some d => copyGeoms es d

/-- src/rx/sg_api.cpp:754-811 `aa_rx_sg_copy` without the allowed collisions (`colCopy`).  The limit
structures are copied one by one (784-793); every structure belongs to one name, so that the copied
heap and map are those of the original. -/
noncomputable def sgCopy (s : LGraph (Obj G) K) : Option (LGraph (Obj G) K) :=
  if s.g.dirty then none
  else
    match copyFrames s.g.frames create with
    | none => none
    | some d =>
      match copyGeoms s.g.frames d with
      | none => none
      | some d => (lindex (⟨d, s.heap, s.lmap, []⟩ : LGraph (Obj G) K)).map (·.2)

/-- The numeric members of the frames. -/
def bodies (g : Graph (Obj G)) : Graph Body :=
  { map := g.map.map (fun f => { f with body := f.body.body })
    frames := g.frames.map (Option.map (fun e => { e with frame := { e.frame with body := e.frame.body.body } }))
    configMap := g.configMap
    configRmap := g.configRmap
    configSize := g.configSize
    dirty := g.dirty }

/-- src/rx/sg_api.cpp:642-656 `aa_rx_sg_frame_get_mass`, with `aa_rx_sg_frame_get_inertia` (658-670):
`some none` is NaN and a null pointer. -/
def getInertial (g : Graph (Obj G)) (id : Int) : Option (Option (ℝ × M3)) :=
  if g.dirty then none else (entry g id).map (·.frame.body.inertial)

end

/-- src/rx/sg_api.cpp:760-782 for the allowed collisions: new frame objects of the same names. -/
def colCopyFrames : List (Option (Entry Nat)) → ColGraph → Option ColGraph
  | [], d => some d
  | none :: _, _ => none
  | some e :: es, d => colCopyFrames es (colAdd d e.frame.name e.frame.parent e.frame.kind e.frame.config)

/-- src/rx/sg_api.cpp:801-804: the allowed pairs. -/
def colCopyAllowed (c : ColGraph) : List (Nat × Nat) → ColGraph → Option ColGraph
  | [], d => some d
  | p :: ps, d =>
    match deref c p.1, deref c p.2 with
    | some a, some b =>
      match allowName d a b true with
      | none => none
      | some d => colCopyAllowed c ps d
    | _, _ => none

/-- src/rx/sg_api.cpp:754-811 `aa_rx_sg_copy`: the allowed collisions. -/
def colCopy (c : ColGraph) : Option ColGraph :=
  if c.g.dirty then none
  else
    match colCopyFrames c.g.frames colCreate with
    | none => none
    | some d =>
      match colCopyAllowed c c.allowed d with
      | none => none
      | some d => colInit d

end Verif.Sg
