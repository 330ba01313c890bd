/-
Scene files written from scene graphs: `object-rope` of scene graphs, frames and geometry (lisp/rx/sg-rope.lisp:40-136),
and the words of the lexer that names become (lisp/rx/scenefile/curly.lisp:88-108).

What is written is given as the statements of the file, to be read by C158; names, types and shapes are written as bare
words, files of meshes as strings.  Numbers are exact (their text is not modelled).  Drawing options are those found
with the defaults (lisp/rx/scenegraph.lisp:84-86).  Left out: text, torus and other shapes without a method, which are
errors as cones are, names with characters that words cannot have.
-/
import Verif.Model.CurlyScene

namespace Verif.SgRope

open Verif.CurlyScene

inductive WShape
  | box (dim : List Rat)
  | grid (dim delta : List Rat) (thickness : Rat)
  | sphere (r : Rat)
  | cylinder (height radius : Rat)
  | cone (height start stop : Rat)
  | mesh (file : String)
  deriving DecidableEq

/-- `scene-geometry` (lisp/rx/scenegraph.lisp:151-158) with its drawing options. -/
structure WGeom where
  shape : WShape
  visual : Bool
  collision : Bool
  color : Option (List Rat)
  alpha : Option Rat
  scale : Option Rat
  specular : Option (List Rat)
  noShadow : Bool
  types : List String
  deriving DecidableEq

inductive WJoint
  | fixed
  | prismatic (axis : List Rat) (offset : Rat) (var : String)
  | revolute (axis : List Rat) (offset : Rat) (var : String)
  deriving DecidableEq

/-- `scene-frame` (lisp/rx/scenegraph.lisp:326-331 and 422-427). -/
structure WFrame where
  name : String
  parent : Option String
  quat : List Rat
  trans : List Rat
  joint : WJoint
  limits : Option (Rat × Rat)
  mass : Option Rat
  geoms : List WGeom
  deriving DecidableEq

/-- `scene-graph` (lisp/rx/scenegraph.lisp:555-563). -/
structure WScene where
  frames : List WFrame
  allowed : List (String × String)
  deriving DecidableEq

/-- `geometry-rope` (lisp/rx/sg-rope.lisp:116-136): there is no method for cones. -/
def shapeProps : WShape → Option Props
  | .box d => some [("shape", .str "box"), ("dimension", .vec d)]
  | .grid d _ t => some [("shape", .str "grid"), ("dimension", .vec d), ("thickness", .num t)]
  | .sphere r => some [("shape", .str "sphere"), ("radius", .num r)]
  | .cylinder h r => some [("shape", .str "cylinder"), ("radius", .num r), ("height", .num h)]
  | .cone _ _ _ => none
  | .mesh f => some [("mesh", .str f)]

/-- A property that may be missing. -/
def opt {α : Type} (k : String) (f : α → Val) : Option α → Props
  | none => []
  | some x => [(k, f x)]

/-- `object-rope` of geometry (lisp/rx/sg-rope.lisp:103-114). -/
def geomProps (g : WGeom) : Option Props :=
  (shapeProps g.shape).map fun s =>
    (if g.visual then [] else [("visual", .num 0)]) ++ (if g.collision then [] else [("collision", .num 0)]) ++ s ++
      opt "color" .vec g.color ++ opt "alpha" .num g.alpha

/-- The properties of joints (lisp/rx/sg-rope.lisp:80-84). -/
def jointProps : WJoint → Props
  | .fixed => []
  | .prismatic a o v => [("variable", .str v), ("axis", .vec a), ("offset", .num o)]
  | .revolute a o v => [("variable", .str v), ("axis", .vec a), ("offset", .num o)]

def typeName : WJoint → String
  | .fixed => "fixed"
  | .prismatic _ _ _ => "prismatic"
  | .revolute _ _ _ => "revolute"

/-- The properties of a frame (lisp/rx/sg-rope.lisp:57-84). -/
def frameProps (w : WFrame) : Props :=
  opt "parent" .str w.parent ++ [("type", .str (typeName w.joint))] ++
    (if w.trans = [0, 0, 0] then [] else [("translation", .vec w.trans)]) ++
    (if w.quat = [0, 0, 0, 1] then [] else [("quaternion", .vec w.quat)]) ++ jointProps w.joint

/-- Statements `key value;` (lisp/rx/sg-rope.lisp:53-55 and 98-99). -/
def stmts (p : Props) : List Stmt := p.map fun e => .prop e.1 e.2

/-- All geometry of a frame (lisp/rx/sg-rope.lisp:85). -/
def writeGeoms : List WGeom → Option (List Stmt)
  | [] => some []
  | g :: l => (geomProps g).bind fun p => (writeGeoms l).map fun r => .geom (stmts p) :: r

/-- `frame-rope` (lisp/rx/sg-rope.lisp:57-87). -/
def writeFrame (w : WFrame) : Option Thing :=
  (writeGeoms w.geoms).map fun g => .frame w.name (stmts (frameProps w) ++ g)

/-- `object-rope` of scene graphs (lisp/rx/sg-rope.lisp:40-41). -/
def writeFrames : List WFrame → Option (List Thing)
  | [] => some []
  | w :: l => (writeFrame w).bind fun t => (writeFrames l).map fun r => t :: r

def write (sc : WScene) : Option (List Thing) := writeFrames sc.frames

/-- Letters and digits of words (`\w` of the regular expressions). -/
def wordChar (c : Char) : Bool := c.isAlphanum || c == '_'

/-- Keywords and constants of the lexer (lisp/rx/scenefile/curly.lisp:89-102). -/
def keywords : List String := ["frame", "geometry", "class", "object", "include", "allow_collision", "def", "pi", "deg"]

/-- The keyword `k` is matched at the start of `s`: `k(?!\w)`. -/
def startsWith (k s : List Char) : Bool :=
  match k, s with
  | [], [] => true
  | [], c :: _ => !wordChar c
  | _ :: _, [] => false
  | a :: k, c :: s => a == c && startsWith k s

/-- The text is lexed as one identifier (lisp/rx/scenefile/curly.lisp:88-108): no keyword comes first. -/
def isWord (s : String) : Bool :=
  (match s.toList with
    | [] => false
    | c :: l => c.isAlpha && l.all fun c => c.isAlphanum || c == '_' || c == '-') &&
  keywords.all fun k => !startsWith k.toList s.toList

/-- The bare words of statements; files of meshes are quoted. -/
def words : List Stmt → List String
  | [] => []
  | .prop k (.str v) :: b => if k = "mesh" then words b else v :: words b
  | _ :: b => words b

/-- The names of a thing are words. -/
def wellNamed : Thing → Bool
  | .cls n b => isWord n && (words b).all isWord
  | .frame n b => isWord n && (words b).all isWord

/-- The file is read: a word that is none is a parse error. -/
def readBack (ts : List Thing) : Option Scene := if ts.all wellNamed then load ts else none

end Verif.SgRope
