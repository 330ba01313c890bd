/-
The two ways from a scene graph of the Lisp library to one of the C library: the C function written by
`scene-graph-genc` (lisp/rx/sg-gen.lisp:44-153 and 272-315) and `%mutable-scene-graph` (lisp/rx/rx-sg.lisp:58-143).

Both are lists of calls of the C library; `run` is what the calls do to the members of `SceneGraph` that matter here.
Left out: the text of the C function (literals of numbers and strings, names of variables), indices, meshes (they
stand by name, their contents are C156 and C157), drawing options of POV-Ray, reference counts.
-/
import Mathlib.Algebra.Field.Defs

namespace Verif.SgGen

variable {K T : Type}

/-- Shapes of geometry (lisp/rx/geom-bind.lisp:218-224, lisp/rx/scenegraph.lisp:50-65). -/
inductive Shape (K : Type)
  | mesh (name : String)
  | box (d : K × K × K)
  | sphere (r : K)
  | cylinder (height radius : K)
  | cone (height start stop : K)
  | grid (dimension delta : K × K) (width : K)
  | torus (angle major minor : K)
  | text (s : String)
  deriving DecidableEq

/-- The association list of drawing options: what `assoc` finds for each key. -/
structure Alist (K : Type) where
  color : Option (K × K × K)
  alpha : Option K
  specular : Option (K × K × K)
  visual : Option Bool
  collision : Option Bool
  noShadow : Option Bool
  scale : Option K

/-- `scene-geometry` (lisp/rx/scenegraph.lisp:151-158); `loaded` tells whether a mesh has a `c-geom`. -/
structure Geom (K : Type) where
  shape : Shape K
  opts : Alist K
  loaded : Bool

/-- The members of joints (lisp/rx/scenegraph.lisp:422-430 and 486-487). -/
structure Joint (K : Type) where
  revolute : Bool
  config : String
  offset : K
  axis : K × K × K
  deriving DecidableEq

/-- `scene-frame` (lisp/rx/scenegraph.lisp:326-331); fixed frames have no `joint`. -/
structure Frame (K T : Type) where
  parent : Option String
  tf : T
  joint : Option (Joint K)
  inertial : Option (K × List K)
  geometry : List (Geom K)

/-- `joint-limits` (lisp/rx/scenegraph.lisp:295-303). -/
structure Limits (K : Type) where
  position : Option (K × K)
  velocity : Option (K × K)
  acceleration : Option (K × K)
  effort : Option (K × K)

/-- `scene-graph` (lisp/rx/scenegraph.lisp:555-563): frames in the order of the set, limits of
configurations, allowed collisions. -/
structure LispSg (K T : Type) where
  frames : List (String × Frame K T)
  limits : String → Option (Limits K)
  allowed : List (String × String)

/-- `struct aa_rx_geom_opt` (src/rx/geom_opt.c:46-150). -/
structure COpt (K : Type) where
  color : K × K × K
  alpha : K
  specular : K × K × K
  visual : Bool
  collision : Bool
  noShadow : Bool
  scale : K
  deriving DecidableEq

/-- The four kinds of limits. -/
inductive Kind
  | pos | vel | acc | eff
  deriving DecidableEq

/-- Calls of the C library. -/
inductive Call (K T : Type)
  | addFixed (parent name : String) (tf : T)
  | addJoint (revolute : Bool) (parent name : String) (tf : T) (config : String) (axis : K × K × K) (offset : K)
  | setLimit (k : Kind) (config : String) (min max : K)
  | setInertial (name : String) (mass : K) (inertia : List K)
  | attach (name : String) (shape : Shape K) (opt : COpt K)
  | allow (name0 name1 : String)

/-! ### The C library -/

/-- `SceneFrame` (src/rx/scenegraph.cpp:59-155). -/
structure CFrame (K T : Type) where
  parent : String
  tf : T
  joint : Option (Joint K)
  inertial : Option (K × List K)
  geometry : List (Shape K × COpt K)
  deriving DecidableEq

/-- `frame_map`, `limits_map` and `allowed` of `SceneGraph`. -/
structure CSg (K T : Type) where
  frames : String → Option (CFrame K T)
  limits : String → Kind → Option (K × K)
  allowed : List (String × String)

/-- `aa_rx_sg_create`. -/
def cempty : CSg K T := ⟨fun _ => none, fun _ _ => none, []⟩

/-- Assignment to a name of the map. -/
def setFrame (s : CSg K T) (n : String) (f : CFrame K T) : CSg K T :=
  { s with frames := fun m => if m = n then some f else s.frames m }

/-- One call; `none` is the use of a null pointer: `aa_rx_sg_add_frame_fixed`, `_revolute` and `_prismatic`
(src/rx/sg_api.cpp:166-195), `aa_rx_sg_set_limit_pos` and others (562-578), `aa_rx_sg_frame_set_inertial` (626-639),
`aa_rx_sg_allow_collision_name` (822-842), `aa_rx_sg_add_geom` (src/rx/scenegraph.cpp:411-418). -/
def exec (s : CSg K T) : Call K T → Option (CSg K T)
  | .addFixed p n tf => some (setFrame s n ⟨p, tf, none, none, []⟩)
  | .addJoint rev p n tf c axis offset => some (setFrame s n ⟨p, tf, some ⟨rev, c, offset, axis⟩, none, []⟩)
  | .setLimit k c lo hi =>
      some { s with limits := fun c' k' => if c' = c ∧ k' = k then some (lo, hi) else s.limits c' k' }
  | .setInertial n m i => (s.frames n).map fun f => setFrame s n { f with inertial := some (m, i) }
  | .attach n sh o => (s.frames n).map fun f => setFrame s n { f with geometry := f.geometry ++ [(sh, o)] }
  | .allow a b =>
      (s.frames a).bind fun _ => (s.frames b).map fun _ =>
        { s with allowed := (if a < b then (a, b) else (b, a)) :: s.allowed }

/-- Calls in order. -/
def run : List (Call K T) → CSg K T → Option (CSg K T)
  | [], s => some s
  | c :: l, s => (exec s c).bind (run l)

/-! ### The compiler -/

section
variable [Field K] [DecidableEq K]

/-- `aa_rx_geom_opt_create` (src/rx/geom_opt.c:52-62). -/
def optCreate : COpt K := ⟨(1 / 2, 1 / 2, 1 / 2), 1, (0, 0, 0), true, true, false, 1⟩

/-- The setters called by `scene-genc-geom` (lisp/rx/sg-gen.lisp:108-123), with the defaults of `draw-option`
(lisp/rx/scenegraph.lisp:72-86). -/
def genOpt (a : Alist K) : COpt K :=
  let o := optCreate
  let o := { o with color := a.color.getD (4 / 5, 4 / 5, 4 / 5) }
  let o := { o with alpha := a.alpha.getD 1 }
  let o := { o with specular := a.specular.getD (0, 0, 0) }
  let o := { o with visual := a.visual.getD true }
  let o := { o with collision := a.collision.getD true }
  let o := { o with noShadow := a.noShadow.getD false }
  let scale := a.scale.getD 1
  if scale = 1 then o else { o with scale := scale }

/-- The shapes of `scene-genc-geom` (lisp/rx/sg-gen.lisp:124-149); `etypecase` signals an error for others. -/
def genShape : Shape K → Option (Shape K)
  | .mesh n => some (.mesh n)
  | .box d => some (.box d)
  | .sphere r => some (.sphere r)
  | .cylinder h r => some (.cylinder h r)
  | .cone h a b => some (.cone h a b)
  | .grid d e w => some (.grid d e w)
  | .torus _ _ _ => none
  | .text _ => none

/-- `scene-genc-geom` (lisp/rx/sg-gen.lisp:102-153). -/
def genGeom (n : String) (g : Geom K) : Option (Call K T) :=
  (genShape g.shape).map fun sh => .attach n sh (genOpt g.opts)

/-- The limits of a configuration (lisp/rx/sg-gen.lisp:79-92; lisp/rx/rx-sg.lisp:88-104). -/
def genLimits (c : String) : Option (Limits K) → List (Call K T)
  | none => []
  | some l =>
      let emit (k : Kind) (x : Option (K × K)) : List (Call K T) := match x with
        | none => []
        | some (lo, hi) => [.setLimit k c lo hi]
      emit .pos l.position ++ emit .vel l.velocity ++ emit .acc l.acceleration ++ emit .eff l.effort

/-- `scene-genc-frame` (lisp/rx/sg-gen.lisp:44-98). -/
def genFrame (sg : LispSg K T) (root : String) (e : String × Frame K T) : List (Call K T) :=
  let parent := e.2.parent.getD root
  match e.2.joint with
  | none => [.addFixed parent e.1 e.2.tf]
  | some j => .addJoint j.revolute parent e.1 e.2.tf j.config j.axis j.offset ::
      (genLimits j.config (sg.limits j.config) ++
        match e.2.inertial with
        | none => []
        | some (m, i) => [.setInertial e.1 m i])

/-- Results of all, or an error. -/
def allSome {α : Type} : List (Option α) → Option (List α)
  | [] => some []
  | x :: l => x.bind fun y => (allSome l).map fun r => y :: r

/-- `scene-graph-genc` (lisp/rx/sg-gen.lisp:282-315): the body of the function for the argument `root`. -/
def genc (sg : LispSg K T) (root : String) : Option (List (Call K T)) :=
  (allSome (sg.frames.flatMap fun e => e.2.geometry.map (genGeom e.1))).map fun geoms =>
    sg.frames.flatMap (genFrame sg root) ++ geoms ++ sg.allowed.map fun p => .allow p.1 p.2

/-! ### Scene graphs made in Lisp -/

/-- `alist-rx-geom-opt` (lisp/rx/geom-bind.lisp:130-151). -/
def alistOpt (a : Alist K) : COpt K :=
  let o := optCreate
  let o := match a.color with | none => o | some c => { o with color := c }
  let o := match a.alpha with | none => o | some c => { o with alpha := c }
  let o := match a.scale with | none => o | some c => { o with scale := c }
  let o := match a.specular with | none => o | some c => { o with specular := c }
  let o := match a.visual with | none => o | some c => { o with visual := c }
  let o := match a.collision with | none => o | some c => { o with collision := c }
  match a.noShadow with | none => o | some c => { o with noShadow := c }

/-- Geometry (lisp/rx/rx-sg.lisp:107-124): text is left out, and so are meshes without `c-geom`. -/
def mutGeom (n : String) (g : Geom K) : List (Call K T) :=
  match g.shape with
  | .text _ => []
  | .mesh m => if g.loaded then [.attach n (.mesh m) (alistOpt g.opts)] else []
  | sh => [.attach n sh (alistOpt g.opts)]

/-- Frames (lisp/rx/rx-sg.lisp:63-104).  `rope-string` of no parent is the empty string. -/
def mutFrame (sg : LispSg K T) (e : String × Frame K T) : List (Call K T) :=
  let parent := e.2.parent.getD ""
  match e.2.joint with
  | none => [.addFixed parent e.1 e.2.tf]
  | some j => .addJoint j.revolute parent e.1 e.2.tf j.config j.axis j.offset ::
      genLimits j.config (sg.limits j.config)

/-- The calls of `%mutable-scene-graph` (lisp/rx/rx-sg.lisp:58-124), for graphs that pass
`check-scene-graph-parents`. -/
def mutable (sg : LispSg K T) : List (Call K T) :=
  sg.frames.flatMap (mutFrame sg) ++ sg.frames.flatMap fun e => e.2.geometry.flatMap (mutGeom e.1)

end

end Verif.SgGen
