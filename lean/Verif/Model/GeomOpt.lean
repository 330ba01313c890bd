/-!
# Options and shapes of geometry (src/rx/geom_opt.c, src/rx/scene_geom.c)

Doubles are only copied: they are an arbitrary type `V` with the three constants that the code uses.  Objects
are numbered; the `n`-th call of a history makes object `n`.  Lifetimes of geometry and meshes are the subject
of `Verif.Model.Life`: here no geometry is destroyed, and a mesh is a name.  The geometry of octrees
(src/rx/octree_geom.cpp) is not modelled.
-/

namespace Verif.GeomOpt

/-- The constants of `aa_rx_geom_opt_create`. -/
structure Consts (V : Type) where
  zero : V
  half : V
  one : V

variable {V : Type}

/-- include/amino/rx/scene_geom_internal.h:53-61 `struct aa_rx_geom_opt`; `color`, `specular` are arrays, the
flags are fields of one bit. -/
structure Opt (V : Type) where
  color0 : V
  color1 : V
  color2 : V
  color3 : V
  spec0 : V
  spec1 : V
  spec2 : V
  scale : V
  noShadow : Bool
  visual : Bool
  collision : Bool

/-- getset.h:80-84 `AA_DEF_BOOL_SETTER`: the value that is stored. -/
def boolOf (i : Int) : Bool := if i ≠ 0 then true else false

/-- geom_opt.c:71-73 `aa_rx_geom_opt_set_no_shadow`, `_set_visual`, `_set_collision`. -/
def setNoShadow (p : Opt V) (i : Int) : Opt V := { p with noShadow := boolOf i }
@[inherit_doc setNoShadow] def setVisual (p : Opt V) (i : Int) : Opt V := { p with visual := boolOf i }
@[inherit_doc setNoShadow] def setCollision (p : Opt V) (i : Int) : Opt V := { p with collision := boolOf i }

/-- geom_opt.c:75 `aa_rx_geom_opt_set_color3` by getset.h:108-114 `AA_DEF_VEC3_SETTER`. -/
def setColor3 (p : Opt V) (x y z : V) : Opt V := { p with color0 := x, color1 := y, color2 := z }

/-- geom_opt.c:76 `aa_rx_geom_opt_set_specular3`. -/
def setSpecular3 (p : Opt V) (x y z : V) : Opt V := { p with spec0 := x, spec1 := y, spec2 := z }

/-- geom_opt.c:78-84 `aa_rx_geom_opt_set_alpha`. -/
def setAlpha (p : Opt V) (a : V) : Opt V := { p with color3 := a }

/-- geom_opt.c:139-145 `aa_rx_geom_opt_set_scale`. -/
def setScale (p : Opt V) (s : V) : Opt V := { p with scale := s }

/-- geom_opt.c:52-62 `aa_rx_geom_opt_create`: `AA_NEW0` and the setters. -/
def create (k : Consts V) : Opt V :=
  let a : Opt V := ⟨k.zero, k.zero, k.zero, k.zero, k.zero, k.zero, k.zero, k.zero, false, false, false⟩
  let a := setAlpha a k.one
  let a := setColor3 a k.half k.half k.half
  let a := setVisual a 1
  let a := setCollision a 1
  setScale a k.one

/-- geom_opt.c:86-100 the getters of the flags. -/
def getNoShadow (p : Opt V) : Int := if p.noShadow then 1 else 0
@[inherit_doc getNoShadow] def getVisual (p : Opt V) : Int := if p.visual then 1 else 0
@[inherit_doc getNoShadow] def getCollision (p : Opt V) : Int := if p.collision then 1 else 0

/-- geom_opt.c:102-121 the getters of the color. -/
def getColorRed (p : Opt V) : V := p.color0
@[inherit_doc getColorRed] def getColorBlue (p : Opt V) : V := p.color1
@[inherit_doc getColorRed] def getColorGreen (p : Opt V) : V := p.color2
@[inherit_doc getColorRed] def getAlpha (p : Opt V) : V := p.color3

/-- geom_opt.c:123-137 the getters of the specular reflection. -/
def getSpecularRed (p : Opt V) : V := p.spec0
@[inherit_doc getSpecularRed] def getSpecularBlue (p : Opt V) : V := p.spec1
@[inherit_doc getSpecularRed] def getSpecularGreen (p : Opt V) : V := p.spec2

/-- geom_opt.c:147-151 `aa_rx_geom_opt_get_scale`. -/
def getScale (p : Opt V) : V := p.scale

/-- include/amino/rx/scene_geom.h:219-286, scene_geom_internal.h:80-113: the types of shapes with their data. -/
inductive Shape (V : Type)
  | box (x y z : V)
  | sphere (radius : V)
  | cylinder (height radius : V)
  | cone (height startRadius endRadius : V)
  | grid (dim0 dim1 delta0 delta1 width : V)
  | torus (angle majorRadius minorRadius : V)
  | mesh (m : Nat)

/-- scene_geom_internal.h:66-78 `struct aa_rx_geom` with the shape. -/
structure Geom (V : Type) where
  opt : Opt V
  shape : Shape V

/-- scene_geom.c:57-62 `ALLOC_GEOM`, 67-76 `aa_rx_geom_box`. -/
def geomBox (p : Opt V) (x y z : V) : Geom V := ⟨p, .box x y z⟩
/-- scene_geom.c:78-87 `aa_rx_geom_sphere`. -/
def geomSphere (p : Opt V) (r : V) : Geom V := ⟨p, .sphere r⟩
/-- scene_geom.c:89-100 `aa_rx_geom_cylinder`. -/
def geomCylinder (p : Opt V) (height radius : V) : Geom V := ⟨p, .cylinder height radius⟩
/-- scene_geom.c:102-115 `aa_rx_geom_cone`. -/
def geomCone (p : Opt V) (height startRadius endRadius : V) : Geom V :=
  ⟨p, .cone height startRadius endRadius⟩
/-- scene_geom.c:118-131 `aa_rx_geom_grid`. -/
def geomGrid (p : Opt V) (dim0 dim1 delta0 delta1 width : V) : Geom V :=
  ⟨p, .grid dim0 dim1 delta0 delta1 width⟩
/-- scene_geom.c:133-148 `aa_rx_geom_torus`. -/
def geomTorus (p : Opt V) (angle majorRadius minorRadius : V) : Geom V :=
  ⟨p, .torus angle majorRadius minorRadius⟩
/-- scene_geom.c:150-160 `aa_rx_geom_mesh`. -/
def geomMesh (p : Opt V) (m : Nat) : Geom V := ⟨p, .mesh m⟩

/-- scene_geom.c:182-240 `aa_rx_geom_modify_opt`. -/
def modifyOpt (src : Geom V) (p : Opt V) : Geom V :=
  match src.shape with
  | .mesh m => geomMesh p m
  | .box x y z => geomBox p x y z
  | .sphere r => geomSphere p r
  | .cylinder h r => geomCylinder p h r
  | .cone h s e => geomCone p h s e
  | .grid d0 d1 e0 e1 w => geomGrid p d0 d1 e0 e1 w
  | .torus a r s => geomTorus p a r s

/-- Calls of a client. -/
inductive Call (V : Type)
  | create
  | destroy (o : Nat)
  | setNoShadow (o : Nat) (i : Int)
  | setVisual (o : Nat) (i : Int)
  | setCollision (o : Nat) (i : Int)
  | setColor (o : Nat) (x y z : V)
  | setSpecular (o : Nat) (x y z : V)
  | setAlpha (o : Nat) (a : V)
  | setScale (o : Nat) (s : V)
  | box (o : Nat) (x y z : V)
  | sphere (o : Nat) (r : V)
  | cylinder (o : Nat) (h r : V)
  | cone (o : Nat) (h s e : V)
  | grid (o : Nat) (d0 d1 e0 e1 w : V)
  | torus (o : Nat) (a r s : V)
  | mesh (o : Nat) (m : Nat)
  | modify (g o : Nat)

/-- The objects that exist, and the number of calls. -/
structure St (V : Type) where
  n : Nat
  opts : Nat → Option (Opt V)
  geoms : Nat → Option (Geom V)

def St.init : St V := ⟨0, fun _ => none, fun _ => none⟩

def upd {A : Type} (f : Nat → A) (i : Nat) (a : A) : Nat → A := fun j => if j = i then a else f j

/-- A call that changes options. -/
def St.change (s : St V) (o : Nat) (f : Opt V → Opt V) : Option (St V) :=
  match s.opts o with
  | none => none
  | some p => some { s with n := s.n + 1, opts := upd s.opts o (some (f p)) }

/-- A call that makes geometry from options. -/
def St.make (s : St V) (o : Nat) (f : Opt V → Geom V) : Option (St V) :=
  match s.opts o with
  | none => none
  | some p => some { s with n := s.n + 1, geoms := upd s.geoms s.n (some (f p)) }

/-- One call; `none`: the behaviour is undefined, an object that does not exist is used. -/
def St.step (k : Consts V) (s : St V) : Call V → Option (St V)
  | .create => some { s with n := s.n + 1, opts := upd s.opts s.n (some (GeomOpt.create k)) }
  /- geom_opt.c:65-69 `aa_rx_geom_opt_destroy` -/
  | .destroy o =>
    match s.opts o with
    | none => none
    | some _ => some { s with n := s.n + 1, opts := upd s.opts o none }
  | .setNoShadow o i => s.change o fun p => GeomOpt.setNoShadow p i
  | .setVisual o i => s.change o fun p => GeomOpt.setVisual p i
  | .setCollision o i => s.change o fun p => GeomOpt.setCollision p i
  | .setColor o x y z => s.change o fun p => setColor3 p x y z
  | .setSpecular o x y z => s.change o fun p => setSpecular3 p x y z
  | .setAlpha o a => s.change o fun p => GeomOpt.setAlpha p a
  | .setScale o a => s.change o fun p => GeomOpt.setScale p a
  | .box o x y z => s.make o fun p => geomBox p x y z
  | .sphere o r => s.make o fun p => geomSphere p r
  | .cylinder o h r => s.make o fun p => geomCylinder p h r
  | .cone o h a b => s.make o fun p => geomCone p h a b
  | .grid o d0 d1 e0 e1 w => s.make o fun p => geomGrid p d0 d1 e0 e1 w
  | .torus o a r b => s.make o fun p => geomTorus p a r b
  | .mesh o m => s.make o fun p => geomMesh p m
  | .modify g o =>
    match s.geoms g with
    | none => none
    | some src => s.make o fun p => modifyOpt src p

/-- A history, the last call first. -/
def run (k : Consts V) : List (Call V) → Option (St V)
  | [] => some .init
  | c :: h => (run k h).bind fun s => s.step k c

end Verif.GeomOpt
