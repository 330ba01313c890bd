/-
What the frames, geometry and classes of a scene file mean (C158).
-/
import Verif.Model.CurlyScene

namespace Verif.CurlyScene

/-- The value a single statement gives to `k`. -/
def Stmt.says (k : String) : Stmt → Option Val
  | .prop k' v => if k' = k then some v else none
  | _ => none

/-- Switches are numbers in the file. -/
def conv (k : String) (v : Val) : Val :=
  if k = "visual" ∨ k = "collision" ∨ k = "no-shadow" then
    match v with
    | .num x => .bool (!decide (x = 0))
    | v => v
  else v

/-- The value that a block itself gives to `k`: that of its last statement. -/
def own (k : String) (b : List Stmt) : Option Val := ((b.filterMap (Stmt.says k)).getLast?).map (conv k)

def Val.word : Val → Option String
  | .str s => some s
  | _ => none

/-- The classes a block names, in the order of the file. -/
def isas (b : List Stmt) : List String := (b.filterMap (Stmt.says "isa")).filterMap Val.word

/-- Definitions of classes, the last first. -/
abbrev Defs := List (String × List Stmt)

/-- What class `c` gives to `k`: its own statement, else the class it names last that gives a value. -/
def classVal : Defs → String → String → Option Val
  | [], _, _ => none
  | (n, b) :: ds, c, k =>
      if n = c then (own k b).or ((isas b).reverse.findSome? fun c' => classVal ds c' k) else classVal ds c k

/-- What a frame gives to `k`: its own statement, else the class it names first that gives a value. -/
def frameVal (ds : Defs) (b : List Stmt) (k : String) : Option Val :=
  (own k b).or ((isas b).findSome? fun c => classVal ds c k)

/-- What geometry gives to `k`: its own statement, else the class it names last that gives a value. -/
def geomVal (ds : Defs) (b : List Stmt) (k : String) : Option Val :=
  (own k b).or ((isas b).reverse.findSome? fun c => classVal ds c k)

/-- A class that is named by the block or, in turn, by such a class. -/
inductive Named : Defs → List Stmt → String → Prop
  | here (ds : Defs) (b : List Stmt) (c : String) : c ∈ isas b → Named ds b c
  | via (ds pre : Defs) (b b' : List Stmt) (c c' : String) (ds' : Defs) : c ∈ isas b → ds = pre ++ (c, b') :: ds' →
      (∀ d ∈ pre, d.1 ≠ c) → Named ds' b' c' → Named ds b c'

/-- A frame in the file: classes before it, frame that encloses it, name, body. -/
structure Occ where
  defs : Defs
  encl : Option String
  name : String
  body : List Stmt

mutual
/-- The frames in a statement, inner frames first. -/
def Stmt.occs (ds : Defs) (encl : String) : Stmt → List Occ
  | .prop _ _ => []
  | .frame n b => stmtsOccs ds n b ++ [⟨ds, some encl, n, b⟩]
  | .geom _ => []

/-- The frames in the body of the frame `encl`. -/
def stmtsOccs (ds : Defs) (encl : String) : List Stmt → List Occ
  | [] => []
  | s :: b => s.occs ds encl ++ stmtsOccs ds encl b
end

/-- All frames of a file. -/
def occs : Defs → List Thing → List Occ
  | _, [] => []
  | ds, .cls n b :: ts => occs ((n, b) :: ds) ts
  | ds, .frame n b :: ts => stmtsOccs ds n b ++ [⟨ds, none, n, b⟩] ++ occs ds ts

def Stmt.geomBody : Stmt → Option (List Stmt)
  | .geom b => some b
  | _ => none

/-- The geometry of a frame with body `b`. -/
def directGeoms (b : List Stmt) : List (List Stmt) := b.filterMap Stmt.geomBody

/-- The joint that is meant. -/
def jointSpec (name : String) (val : String → Option Val) (j : Joint) : Prop :=
  let ty := (val "type").getD (.str "fixed")
  let offset := (val "offset").getD (.num 0)
  let var := (val "variable").getD (.str name)
  (ty = .str "fixed" ∧ j = .fixed) ∨
    ∃ a, val "axis" = some a ∧ ((ty = .str "prismatic" ∧ j = .prismatic a offset var) ∨
      (ty = .str "revolute" ∧ j = .revolute a offset var))

/-- The frame that is meant: its attributes, and as parent the frame it names or else the one that encloses it. -/
structure FrameSpec (o : Occ) (f : Frame) : Prop where
  name : f.name = o.name
  parent : f.parent = (match frameVal o.defs o.body "parent" with
    | some v => v.word
    | none => o.encl)
  trans : f.trans = frameVal o.defs o.body "translation"
  orient : f.orient = (match frameVal o.defs o.body "quaternion", frameVal o.defs o.body "rpy" with
    | some q, _ => .quat q
    | none, some r => .rpy r
    | none, none => .ident)
  joint : jointSpec o.name (frameVal o.defs o.body) f.joint

/-- The geometry that is meant. -/
structure GeomSpec (ds : Defs) (b : List Stmt) (g : Geom) : Prop where
  what : (∃ s, geomVal ds b "shape" = some (.str s) ∧ g.what = .shape s) ∨
    (geomVal ds b "shape" = none ∧ ∃ m, geomVal ds b "mesh" = some m ∧ g.what = .mesh m)
  attr : ∀ k, k ≠ "isa" → g.attr k = geomVal ds b k
  types : ∀ c, .str c ∈ g.types ↔ Named ds b c

/-- No class moves things to another frame. -/
def NoParent (ts : List Thing) : Prop := ∀ n b, .cls n b ∈ ts → own "parent" b = none

end Verif.CurlyScene
