/-
Frames, geometry and classes of scene files: `load-curly-scene` (lisp/rx/scenefile/curly.lisp:373-591).

The statements are those the parser makes, with values as `curly-eval` leaves them (C154): definitions are not
modelled, and so not words that are also names of definitions.  Left out: allowed collisions, the conversion of
values to vectors, rotations and lengths, configuration variables that are shared.  Meshes are not loaded.
`none` stands for an error that is signalled.
-/
import Mathlib.Data.List.Basic
import Mathlib.Data.Rat.Defs

namespace Verif.CurlyScene

/-- Values of attributes. -/
inductive Val
  | num (x : Rat)
  | vec (l : List Rat)
  | str (s : String)
  | bool (b : Bool)
  deriving DecidableEq

/-- A statement of a block: `key value;`, or a block within it (lisp/rx/scenefile/curly.lisp:260-272). -/
inductive Stmt
  | prop (k : String) (v : Val)
  | frame (name : String) (body : List Stmt)
  | geom (body : List Stmt)

/-- What a file consists of: classes and frames (lisp/rx/scenefile/curly.lisp:197-213). -/
inductive Thing
  | cls (name : String) (body : List Stmt)
  | frame (name : String) (body : List Stmt)

abbrev Props := List (String × Val)

/-- `add-prop` (lisp/rx/scenefile/curly.lisp:386-389). -/
def addProp (p : Props) (k : String) (v : Val) : Props := (k, v) :: p

/-- `add-prop-bool` (lisp/rx/scenefile/curly.lisp:390-393). -/
def addPropBool (p : Props) (k : String) : Val → Option Props
  | .num x => some ((k, .bool (!decide (x = 0))) :: p)
  | _ => none

/-- `get-prop` (lisp/rx/scenefile/curly.lisp:394-396). -/
def getProp : Props → String → Option Val
  | [], _ => none
  | (k, v) :: p, key => if k = key then some v else getProp p key

/-- The classes, the last first. -/
abbrev Classes := List (String × Props)

def findClass : Classes → String → Option Props
  | [], _ => none
  | (n, p) :: cs, c => if n = c then some p else findClass cs c

/-- `get-class` (lisp/rx/scenefile/curly.lisp:405-410). -/
def getClass (cs : Classes) : Val → Option Props
  | .str c => findClass cs c
  | _ => none

/-- `class-properties` (lisp/rx/scenefile/curly.lisp:411-414). -/
def classProperties (p : Props) (cps : List Props) : Props := p ++ cps.flatten

def classKeys : List String :=
  ["quaternion", "rpy", "translation", "type", "axis", "offset", "parent", "height", "radius", "scale", "shape",
    "mesh", "dimension", "delta", "thickness", "color", "alpha", "specular"]

/-- The statements of a class (lisp/rx/scenefile/curly.lisp:440-459): properties, and parent classes, the last
first. -/
def classLoop (cs : Classes) : List Stmt → Props → List Props → Option (Props × List Props)
  | [], p, pc => some (p, pc)
  | .prop k v :: b, p, pc =>
      if k ∈ classKeys then classLoop cs b (addProp p k v) pc
      else if k = "visual" ∨ k = "collision" then (addPropBool p k v).bind fun p => classLoop cs b p pc
      else if k = "isa" then (getClass cs v).bind fun c => classLoop cs b (addProp p k v) (c :: pc)
      else none
  | _ :: _, _, _ => none

/-- `add-class` (lisp/rx/scenefile/curly.lisp:433-461). -/
def addClass (cs : Classes) (name : String) (b : List Stmt) : Option Classes :=
  match findClass cs name with
  | some _ => none
  | none => (classLoop cs b [] []).map fun r => (name, classProperties r.1 r.2) :: cs

/-- The orientation of a frame. -/
inductive Orient
  | quat (v : Val) | rpy (v : Val) | ident
  deriving DecidableEq

/-- `get-orientation` (lisp/rx/scenefile/curly.lisp:397-403). -/
def getOrientation (p : Props) : Orient :=
  match getProp p "quaternion", getProp p "rpy" with
  | some q, _ => .quat q
  | none, some r => .rpy r
  | none, none => .ident

inductive Joint
  | fixed
  | prismatic (axis offset var : Val)
  | revolute (axis offset var : Val)
  deriving DecidableEq

/-- `scene-frame` (lisp/rx/scenegraph.lisp:326-345 and 370-504). -/
structure Frame where
  name : String
  parent : Option String
  orient : Orient
  trans : Option Val
  joint : Joint
  deriving DecidableEq

/-- The parent: a string or nil. -/
def parentOf (p : Props) (parent : Option String) : Option (Option String) :=
  match getProp p "parent" with
  | none => some parent
  | some (.str s) => some (some s)
  | some _ => none

/-- The joint (lisp/rx/scenefile/curly.lisp:485 and 489-503); the axis is asserted (lisp/rx/scenegraph.lisp:475,
496). -/
def jointOf (name : String) (p : Props) : Option Joint :=
  match (getProp p "type").getD (.str "fixed") with
  | .str t =>
      let offset := (getProp p "offset").getD (.num 0)
      let var := (getProp p "variable").getD (.str name)
      if t = "fixed" then some .fixed
      else if t = "prismatic" then (getProp p "axis").map fun a => .prismatic a offset var
      else if t = "revolute" then (getProp p "axis").map fun a => .revolute a offset var
      else none
  | _ => none

/-- `insert-frame` (lisp/rx/scenefile/curly.lisp:484-504), with `check-frame-parent`
(lisp/rx/scenegraph.lisp:349-351). -/
def insertFrame (name : String) (p : Props) (parent : Option String) : Option Frame :=
  (parentOf p parent).bind fun par => (jointOf name p).bind fun j =>
    if par = some name then none
    else some ⟨name, par, getOrientation p, getProp p "translation", j⟩

/-- Shape or mesh. -/
inductive What
  | shape (s : String) | mesh (v : Val)
  deriving DecidableEq

/-- Geometry: the shape, the attributes that sizes and options are taken from, and the classes
(lisp/rx/scenefile/curly.lisp:525-574). -/
structure Geom where
  what : What
  attr : String → Option Val
  types : List Val

def geomKeys : List String :=
  ["shape", "color", "alpha", "specular", "mesh", "dimension", "delta", "thickness", "radius", "height",
    "start_radius", "end_radius", "scale"]

/-- The statements of geometry (lisp/rx/scenefile/curly.lisp:508-522). -/
def geomLoop (cs : Classes) : List Stmt → Props → List Props → Option (Props × List Props)
  | [], p, pc => some (p, pc)
  | .prop k v :: b, p, pc =>
      if k ∈ geomKeys then geomLoop cs b (addProp p k v) pc
      else if k = "visual" ∨ k = "collision" ∨ k = "no-shadow" then
        (addPropBool p k v).bind fun p => geomLoop cs b p pc
      else if k = "isa" then (getClass cs v).bind fun c => geomLoop cs b (addProp p k v) (c :: pc)
      else none
  | _ :: _, _, _ => none

def shapes : List String := ["box", "cone", "sphere", "grid", "cylinder"]

/-- `property-classes` (lisp/rx/scenefile/curly.lisp:525-530). -/
def propertyClasses (p : Props) : List Val := (p.filter fun q => q.1 = "isa").map Prod.snd

/-- The shape (lisp/rx/scenefile/curly.lisp:542-543 and 545-570). -/
def whatOf (p : Props) : Option What :=
  match getProp p "shape", getProp p "mesh" with
  | some (.str s), _ => if s ∈ shapes then some (.shape s) else none
  | some _, _ => none
  | none, some m => some (.mesh m)
  | none, none => none

/-- `insert-geom` (lisp/rx/scenefile/curly.lisp:541-574): the frame it belongs to and the geometry. -/
def insertGeom (p : Props) (parent : String) : Option (String × Geom) :=
  (whatOf p).bind fun w => (parentOf p (some parent)).bind fun par =>
    par.map fun par => (par, ⟨w, getProp p, propertyClasses p⟩)

/-- `add-geom` (lisp/rx/scenefile/curly.lisp:505-524). -/
def addGeom (cs : Classes) (b : List Stmt) (parent : String) : Option (String × Geom) :=
  (geomLoop cs b [] []).bind fun r => insertGeom (classProperties r.1 r.2) parent

/-- The lists `frames` and `geoms`, here with the first first. -/
structure Acc where
  frames : List Frame
  geoms : List (String × Geom)

def frameKeys : List String := ["axis", "quaternion", "rpy", "translation", "type", "offset", "variable"]

/-- The variables of `add-frame` within its loop. -/
structure Loop where
  props : Props
  classes : List Props
  acc : Acc

mutual
/-- A statement of the frame `name` within `parent` (lisp/rx/scenefile/curly.lisp:467-482). -/
def frameStmt (cs : Classes) (name : String) (parent : Option String) : Stmt → Loop → Option Loop
  | .prop k v, l =>
      if k ∈ frameKeys then some { l with props := addProp l.props k v }
      else if k = "parent" then
        match parent with
        | none => some { l with props := addProp l.props k v }
        | some _ => none
      else if k = "isa" then (getClass cs v).map fun c => { l with classes := c :: l.classes }
      else none
  | .frame n b, l =>
      (frameStmts cs n (some name) b ⟨[], [], l.acc⟩).bind fun l' =>
        (insertFrame n (classProperties l'.props l'.classes.reverse) (some name)).map fun f =>
          { l with acc := { l'.acc with frames := l'.acc.frames ++ [f] } }
  | .geom b, l =>
      (addGeom cs b name).map fun g => { l with acc := { l.acc with geoms := l.acc.geoms ++ [g] } }

/-- The loop of `add-frame` (lisp/rx/scenefile/curly.lisp:466-482). -/
def frameStmts (cs : Classes) (name : String) (parent : Option String) : List Stmt → Loop → Option Loop
  | [], l => some l
  | s :: b, l => (frameStmt cs name parent s l).bind (frameStmts cs name parent b)
end

/-- `add-frame` (lisp/rx/scenefile/curly.lisp:462-483). -/
def addFrame (cs : Classes) (name : String) (b : List Stmt) (parent : Option String) (a : Acc) : Option Acc :=
  (frameStmts cs name parent b ⟨[], [], a⟩).bind fun l =>
    (insertFrame name (classProperties l.props l.classes.reverse) parent).map fun f =>
      { l.acc with frames := l.acc.frames ++ [f] }

/-- `add-thing` for each thing (lisp/rx/scenefile/curly.lisp:415-432 and 575-577). -/
def addThings : List Thing → Classes → Acc → Option Acc
  | [], _, a => some a
  | .cls n b :: ts, cs, a => (addClass cs n b).bind fun cs => addThings ts cs a
  | .frame n b :: ts, cs, a => (addFrame cs n b none a).bind fun a => addThings ts cs a

/-- The frame `name` of the scene graph: frames are added from the last to the first, and replaced
(`%scene-graph-add-frame`, lisp/rx/scenegraph.lisp:641-655). -/
def frameAt (fs : List Frame) (name : String) : Option Frame := fs.find? fun f => f.name = name

/-- The scene (lisp/rx/scenefile/curly.lisp:578-584): frames, and for each its geometry.  Geometry is added
from the last to the first, each at the front; a frame that does not exist is an error
(lisp/rx/scenegraph.lisp:686-690). -/
structure Scene where
  frame : String → Option Frame
  geoms : String → List Geom

/-- `load-curly-scene` (lisp/rx/scenefile/curly.lisp:373-591). -/
def load (ts : List Thing) : Option Scene :=
  (addThings ts [] ⟨[], []⟩).bind fun a =>
    if a.geoms.all fun g => (frameAt a.frames g.1).isSome then
      some ⟨frameAt a.frames, fun n => (a.geoms.filter fun g => g.1 = n).map Prod.snd⟩
    else none

end Verif.CurlyScene
