/-
Scene graphs from URDF files: `urdf-extract-joints`, `urdf-create-frames`, `urdf-bind-links` and `urdf-parse`
(lisp/rx/scenefile/urdf.lisp:127-195 and 235-374).

The document has been read: joints and links are records.  Transforms are the elements of a group `G`; the motion of
joints, `mot`, and translations along z, `tz`, are given.  Drawing options of materials are values of `M`.
Left out: the lookup of files and packages, numbers as text, links with several shapes in one node (an error),
properties of materials, attributes of `origin` (a node without origin has the identity).
-/
import Verif.Model.LispSg
import Mathlib.Algebra.Field.Defs

namespace Verif.Urdf

open Verif.LispSg

/-- Types of joints in URDF. -/
inductive UType
  | fixed | prismatic | revolute | continuous | floating | planar
  deriving DecidableEq

/-- `urdf-joint` (lisp/rx/scenefile/urdf.lisp:110-121). -/
structure UJoint (G K A : Type) where
  name : String
  type : UType
  origin : G
  axis : Option A
  parent : String
  child : String
  effort : Option K
  lower : Option K
  upper : Option K
  velocity : Option K

inductive Shape (K : Type)
  | mesh (file : String) (sx sy sz : K)
  | box (x y z : K)
  | sphere (r : K)
  | cylinder (height radius : K)

/-- A `visual` or `collision` node. -/
structure UGeom (G K M : Type) where
  origin : G
  shape : Option (Shape K)
  material : Option M

/-- An `inertial` node. -/
structure UInertial (G K : Type) where
  origin : G
  mass : K
  ixx : K
  ixy : K
  ixz : K
  iyy : K
  iyz : K
  izz : K

/-- A `link` node. -/
structure ULink (G K M : Type) where
  name : String
  visuals : List (UGeom G K M)
  collisions : List (UGeom G K M)
  inertial : Option (UInertial G K)

/-- Shapes of scene geometry; meshes have one scale. -/
inductive SShape (K : Type)
  | mesh (file : String) (scale : K)
  | box (x y z : K)
  | sphere (r : K)
  | cylinder (height radius : K)
  deriving DecidableEq

/-- Scene geometry. -/
structure SGeom (K M : Type) where
  shape : SShape K
  visual : Bool
  collision : Bool
  material : Option M
  deriving DecidableEq

/-- Limits of joints (lisp/rx/scenegraph.lisp:295-303). -/
structure Limits (K : Type) where
  position : Option (K × K)
  velocity : Option (K × K)
  effort : Option (K × K)

/-- What else frames carry; `none` in `geoms` is the geometry of a collision node without shape. -/
structure Data (K M : Type) where
  geoms : List (Option (SGeom K M))
  inertial : Option (K × List K)
  limits : Option (Limits K)

variable {G K A M : Type} [Group G] [DecidableEq G] [Field K]

/-- The frames of scene graphs of URDF files. -/
abbrev UFrame (G K M : Type) := Frame G (String → K) (Data K M)

/-- `joint-limit` (lisp/rx/scenegraph.lisp:432-454): `none` is an error. -/
def jointLimit (value min max : Option K) : Option (Option (K × K)) :=
  match value, min, max with
  | none, none, none => some none
  | none, some lo, some hi => some (some (lo, hi))
  | some v, none, none => some (some (-v, v))
  | _, _, _ => none

/-- The limits of a joint (lisp/rx/scenefile/urdf.lisp:173-176). -/
def jointLimits (j : UJoint G K A) : Option (Limits K) :=
  (jointLimit none j.lower j.upper).bind fun p =>
  (jointLimit j.velocity none none).bind fun v =>
  (jointLimit j.effort none none).map fun e => ⟨p, v, e⟩

/-- One frame (lisp/rx/scenefile/urdf.lisp:164-192), with `type` of `urdf-extract-joints` (lisp/rx/scenefile/urdf.lisp:132-138)
and the checks of `scene-frame-revolute` and `scene-frame-prismatic` (lisp/rx/scenegraph.lisp:349-351 and 467-504). -/
def createFrame (mot : Bool → A → K → G) (pm : String → Option String) (j : UJoint G K A) :
    Option (String × UFrame G K M) :=
  (jointLimits j).bind fun lim =>
  let moving (rev : Bool) : Option (String × UFrame G K M) := j.axis.map fun a =>
    (j.name, ⟨pm j.parent, some fun q => mot rev a (q j.name), j.origin, ⟨[], none, some lim⟩⟩)
  if pm j.parent = some j.name then none else
  match j.type with
  | .fixed => some (j.name, ⟨pm j.parent, none, j.origin, ⟨[], none, none⟩⟩)
  | .revolute => moving true
  | .continuous => moving true
  | .prismatic => moving false
  | .floating => none
  | .planar => none

/-- `link-parent-map` (lisp/rx/scenefile/urdf.lisp:363-370). -/
def parentMap (js : List (UJoint G K A)) : String → Option String :=
  js.foldl (fun m j l => if l = j.child then some j.name else m l) fun _ => none

/-- Results of all, or an error. -/
def allSome {α : Type} : List (Option α) → Option (List α)
  | [] => some []
  | x :: l => x.bind fun y => (allSome l).map fun r => y :: r

/-- The scene graph of the joints (lisp/rx/scenefile/urdf.lisp:372-373). -/
def jointFrames (mot : Bool → A → K → G) (js : List (UJoint G K A)) : Option (List (String × UFrame G K M)) :=
  (allSome (js.map (createFrame mot (parentMap js)))).map fun l => l.foldl (fun st e => put st e.1 e.2) []

/-- Shapes of `node-geometry` (lisp/rx/scenefile/urdf.lisp:242-270): the scale of a mesh is its first component. -/
def nodeShape : Shape K → SShape K
  | .mesh f sx _ _ => .mesh f sx
  | .box x y z => .box x y z
  | .sphere r => .sphere r
  | .cylinder h r => .cylinder h r

/-- What is bound to a frame. -/
inductive Payload (K M : Type)
  | geom (g : Option (SGeom K M))
  | inertial (mass : K) (inertia : List K)

/-- A node to be bound: the link, the suffix of a new frame, the origin and what is bound. -/
structure Item (G K M : Type) where
  link : String
  suffix : String
  origin : G
  payload : Payload K M

/-- The name of a new frame. -/
def Item.newName (a : Item G K M) : String := a.link ++ "-" ++ a.suffix

/-- The offset of cylinders (lisp/rx/scenefile/urdf.lisp:276-279). -/
def offset (tz : K → G) : Payload K M → G
  | .geom (some ⟨.cylinder h _, _, _, _⟩) => tz (h / -2)
  | _ => 1

/-- `node-origin` (lisp/rx/scenefile/urdf.lisp:271-294): the frames and the name of the frame to bind to. -/
def nodeOrigin (tz : K → G) (pm : String → Option String) (st : List (String × UFrame G K M)) (a : Item G K M) :
    List (String × UFrame G K M) × String :=
  let tf := a.origin * offset tz a.payload
  match pm a.link with
  | some n => if tf = 1 then (st, n) else (put st a.newName ⟨some n, none, tf, ⟨[], none, none⟩⟩, a.newName)
  | none => (put st a.newName ⟨none, none, tf, ⟨[], none, none⟩⟩, a.newName)

/-- `scene-graph-add-geometry` and `scene-graph-set-inertial` (lisp/rx/scenegraph.lisp:686-701). -/
def addPayload (p : Payload K M) (d : Data K M) : Data K M :=
  match p with
  | .geom g => { d with geoms := g :: d.geoms }
  | .inertial m i => { d with inertial := some (m, i) }

/-- One node is bound; `none` is a frame that does not exist. -/
def bindItem (tz : K → G) (pm : String → Option String) (st : List (String × UFrame G K M)) (a : Item G K M) :
    Option (List (String × UFrame G K M)) :=
  let r := nodeOrigin tz pm st a
  (find r.1 r.2).map fun f => put r.1 r.2 { f with data := addPayload a.payload f.data }

/-- The tensor of an `inertial` node (lisp/rx/scenefile/urdf.lisp:331-349), column major. -/
def tensor (i : UInertial G K) : List K :=
  let iyx := -i.ixy
  let izy := -i.iyz
  let izx := -i.ixz
  [i.ixx, iyx, izx, i.ixy, i.iyy, izy, i.ixz, i.iyz, i.izz]

/-- The nodes of a link in order (lisp/rx/scenefile/urdf.lisp:300-349).  The material of the first visual node is used for
all.  Visual nodes without shape are skipped, collision nodes are not. -/
def linkItems (l : ULink G K M) : List (Item G K M) :=
  let mat := l.visuals.head?.bind fun v => v.material
  (l.visuals.filterMap fun v => v.shape.map fun s =>
    ⟨l.name, "visual", v.origin, .geom (some ⟨nodeShape s, true, false, mat⟩)⟩) ++
  (l.collisions.map fun c =>
    ⟨l.name, "collision", c.origin, .geom (c.shape.map fun s => ⟨nodeShape s, false, true, mat⟩)⟩) ++
  match l.inertial with
  | none => []
  | some i => [⟨l.name, "inertial", i.origin, .inertial i.mass (tensor i)⟩]

/-- All nodes. -/
def bindItems (tz : K → G) (pm : String → Option String) :
    List (Item G K M) → List (String × UFrame G K M) → Option (List (String × UFrame G K M))
  | [], st => some st
  | a :: l, st => (bindItem tz pm st a).bind (bindItems tz pm l)

/-- `urdf-parse` (lisp/rx/scenefile/urdf.lisp:353-374). -/
def urdfParse (mot : Bool → A → K → G) (tz : K → G) (js : List (UJoint G K A)) (ls : List (ULink G K M)) :
    Option (List (String × UFrame G K M)) :=
  (jointFrames mot js).bind (bindItems tz (parentMap js) (ls.flatMap linkItems))

end Verif.Urdf
