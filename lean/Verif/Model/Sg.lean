import Verif.Model.TfConv

/-!
# Model: scene graph (src/rx/scenegraph.cpp, src/rx/sg_api.cpp)

Names are `String`s.  `std::map<std::string,SceneFrame*> frame_map` is the list of its frames in
iteration order (ascending names); one entry per name.  Frame objects are values: the pointers in
`frames` and in `frame_map` are to the same objects, which the model represents by copying the frame
together with the indices assigned to it by `index` (`Entry`).

Simplifications: transforms `TF_rel`, `TF_abs` are lists of columns (the leading dimensions are at
least 7, 12 or 8 and the arrays do not overlap); `double` is `ℝ`; geometry, inertia and the GL state
are left out.  `none` is undefined behaviour (a null dereference or an out of range access).
-/

namespace Verif.Sg

open Verif.Tf

/-- include/amino/rx/rxtype.h `enum aa_rx_frame_type`. -/
inductive Kind
  | fixed
  | revolute
  | prismatic
  deriving DecidableEq, Repr

/-- include/amino/rx/scenegraph_internal.h:88-131 `SceneFrame`, `SceneFrameJoint`, without the
indices assigned by `index`.  `config` (the member `config_name`) is meaningless for a fixed frame.
`P` holds the numeric members. -/
structure Frame (P : Type) where
  name : String
  parent : String
  kind : Kind
  config : String
  body : P
  deriving DecidableEq, Repr

/-- A frame with the indices `SceneGraph::index` has assigned to it: members `parent_id` and
`config_index` (of a joint); `frame_id` is the position in `frames`. -/
structure Entry (P : Type) where
  frame : Frame P
  parentId : Int
  configIndex : Option Nat
  deriving DecidableEq, Repr

/-- include/amino/rx/rxtype.h `AA_RX_FRAME_ROOT`, `AA_RX_FRAME_NONE`, `AA_RX_CONFIG_NONE`. -/
def frameRoot : Int := -1
def frameNone : Int := -2
def configNone : Int := -1

/-- include/amino/rx/scenegraph_internal.h:174-218 `SceneGraph`.  `frames` may hold null pointers
(`none`) after `frames.resize`; `configSize` is `none` while the member is indeterminate. -/
structure Graph (P : Type) where
  map : List (Frame P)
  frames : List (Option (Entry P))
  configMap : List (String × Nat)
  configRmap : List String
  configSize : Option Nat
  dirty : Bool
  deriving DecidableEq, Repr

section
variable {P : Type}

/-- src/rx/scenegraph.cpp:88-91 `SceneFrame::in_global`. -/
def Frame.inGlobal (f : Frame P) : Bool := f.parent = ""

/-- src/rx/scenegraph.cpp:269-272 `SceneGraph::SceneGraph`; sg_api.cpp `aa_rx_sg_create`. -/
def create : Graph P := ⟨[], [], [], [], none, false⟩

/-- `std::map::find` on `frame_map`. -/
def find (m : List (Frame P)) (n : String) : Option (Frame P) := m.find? (fun f => f.name = n)

/-- `frame_map[f->name] = f`: replace the frame of the same name or insert in name order. -/
def mapPut : List (Frame P) → Frame P → List (Frame P)
  | [], f => [f]
  | g :: m, f =>
    if f.name = g.name then f :: m
    else if f.name < g.name then f :: g :: m
    else g :: mapPut m f

/-- src/rx/scenegraph.cpp:379-391 `SceneGraph::add`. -/
def add (g : Graph P) (f : Frame P) : Graph P := { g with map := mapPut g.map f, dirty := true }

/-- src/rx/sg_api.cpp:197-212 `aa_rx_sg_rm_frame`. -/
def rm (g : Graph P) (n : String) : Graph P :=
  { g with map := g.map.filter (fun f => f.name ≠ n), dirty := true }

/-- src/rx/scenegraph.cpp:288-303 `sort_frame_helper`.  State: the list so far and the visited
names.  The first argument bounds the recursion depth (`none` when exceeded); `index` passes a bound
that is never exceeded (`sortHelper_total`).  A name that is not in the map is a null dereference. -/
def sortHelper (m : List (Frame P)) :
    Nat → String → List (Frame P) × List String → Option (List (Frame P) × List String)
  | 0, _, _ => none
  | n + 1, name, s =>
    if name = "" ∨ name ∈ s.2 then some s
    else
      match find m name with
      | none => none
      | some f =>
        match sortHelper m n f.parent (s.1, name :: s.2) with
        | none => none
        | some t => some (t.1 ++ [f], t.2)

/-- src/rx/scenegraph.cpp:320-328: the loop calling `sort_frame_helper` for every frame. -/
def sortAll (m : List (Frame P)) :
    List (Frame P) → List (Frame P) × List String → Option (List (Frame P) × List String)
  | [], s => some s
  | f :: fs, s =>
    match sortHelper m (m.length + 1) f.name s with
    | none => none
    | some t => sortAll m fs t

/-- State of the numbering loop, src/rx/scenegraph.cpp:331-372.  `configSet` is the local
`config_set`. -/
structure NumSt (P : Type) where
  entries : List (Entry P)
  configSet : List String
  configRmap : List String
  configMap : List (String × Nat)
  configSize : Nat
  deriving DecidableEq, Repr

/-- `config_map[c]` for a name that is present. -/
def lookupConfig (m : List (String × Nat)) (c : String) : Option Nat :=
  (m.find? (fun p => p.1 = c)).map (·.2)

/-- The member `frame_id` of the frame called `n` while the numbering loop runs: its position if it
has been numbered, `AA_RX_FRAME_NONE` otherwise (scenegraph.cpp:325). -/
def curId (es : List (Entry P)) (n : String) : Int :=
  match es.findIdx? (fun e => e.frame.name = n) with
  | some i => (i : Int)
  | none => frameNone

/-- src/rx/scenegraph.cpp:339-371: one iteration of the numbering loop. -/
def numStep (s : NumSt P) (f : Frame P) : NumSt P :=
  let pid := if f.inGlobal then frameRoot else curId s.entries f.parent
  match f.kind with
  | Kind.fixed => { s with entries := s.entries ++ [⟨f, pid, none⟩] }
  | _ =>
    if f.config ∈ s.configSet then
      { s with entries := s.entries ++ [⟨f, pid, lookupConfig s.configMap f.config⟩] }
    else
      let cm := s.configMap ++ [(f.config, s.configSize)]
      { entries := s.entries ++ [⟨f, pid, lookupConfig cm f.config⟩]
        configSet := f.config :: s.configSet
        configRmap := s.configRmap ++ [f.config]
        configMap := cm
        configSize := s.configSize + 1 }

/-- Result of `index`: the return value 0 or `AA_RX_INVALID_FRAME`. -/
inductive Status
  | ok
  | invalidFrame
  deriving DecidableEq, Repr

/-- src/rx/scenegraph.cpp:309-317: every named parent is in the map. -/
def parentsOk (m : List (Frame P)) : Bool :=
  m.all (fun f => f.inGlobal || (find m f.parent).isSome)

/-- src/rx/scenegraph.cpp:305-376 `SceneGraph::index`; sg_api.cpp:62-65 `aa_rx_sg_init`. -/
def index (g : Graph P) : Option (Status × Graph P) :=
  if !g.dirty then some (Status.ok, g)
  else if !parentsOk g.map then some (Status.invalidFrame, g)
  else
    match sortAll g.map g.map ([], []) with
    | none => none
    | some t =>
      let s := t.1.foldl numStep ⟨[], [], [], [], 0⟩
      some (Status.ok,
        { g with
          frames := s.entries.map some ++ List.replicate (g.map.length - s.entries.length) none
          configMap := s.configMap
          configRmap := s.configRmap
          configSize := some s.configSize
          dirty := false })

/-! ## Queries (src/rx/sg_api.cpp) -/

/-- sg_api.cpp:78-82 `aa_rx_sg_frame_count`. -/
def frameCount (g : Graph P) : Nat := g.frames.length

/-- sg_api.cpp:67-76 `aa_rx_sg_config_count` (on a clean graph). -/
def configCount (g : Graph P) : Option Nat := g.configSize

/-- sg_api.cpp:101-111 `aa_rx_sg_frame_id` (on a clean graph: the member `frame_id` of the frame
found in the map; `AA_RX_FRAME_NONE` if `index` left the frame out). -/
def frameId (g : Graph P) (n : String) : Int :=
  if n = "" then frameRoot
  else
    match find g.map n with
    | none => frameNone
    | some _ =>
      match g.frames.findIdx? (fun e => e.any (fun e => e.frame.name = n)) with
      | some i => (i : Int)
      | none => frameNone

/-- The frame object at an index: `frames[(size_t)id]`, dereferenced. -/
def entry (g : Graph P) (id : Int) : Option (Entry P) :=
  if id < 0 then none else (g.frames[id.toNat]?).join

/-- sg_api.cpp:113-130 `aa_rx_sg_frame_name`. -/
def frameName (g : Graph P) (id : Int) : Option String :=
  if id = frameRoot then some ""
  else if id = frameNone then some "?"
  else if id ≥ (frameCount g : Int) ∨ id < 0 then some "?"
  else (entry g id).map (·.frame.name)

/-- sg_api.cpp:150-163 `aa_rx_sg_frame_parent`. -/
def frameParent (g : Graph P) (id : Int) : Option Int :=
  if id = frameNone ∨ id = frameRoot then some frameNone
  else (entry g id).map (·.parentId)

/-- sg_api.cpp:84-89 `aa_rx_sg_frame_type`. -/
def frameType (g : Graph P) (id : Int) : Option Kind := (entry g id).map (·.frame.kind)

/-- sg_api.cpp:91-99 `aa_rx_sg_config_id`. -/
def configId (g : Graph P) (c : String) : Int :=
  match lookupConfig g.configMap c with
  | some i => (i : Int)
  | none => configNone

/-- sg_api.cpp:132-148 `aa_rx_sg_config_name`: the bound is the number of frames. -/
def configName (g : Graph P) (id : Int) : Option String :=
  if id = -1 then some "NONE"
  else if id = -2 then some "MULTI"
  else if id < 0 ∨ id ≥ (frameCount g : Int) then some "NONE"
  else g.configRmap[id.toNat]?

/-- sg_api.cpp:530-546 `aa_rx_sg_frame_config`. -/
def frameConfig (g : Graph P) (id : Int) : Option Int :=
  match entry g id with
  | none => none
  | some e =>
    match e.frame.kind with
    | Kind.fixed => some configNone
    | _ => e.configIndex.map (fun (i : Nat) => (i : Int))

/-! ## Histories -/

/-- The calls that change the indexing of a scene graph. -/
inductive Op (P : Type)
  | add (f : Frame P)
  | rm (n : String)
  | init

/-- One call; `none` is undefined behaviour. -/
def step (g : Graph P) : Op P → Option (Graph P)
  | Op.add f => some (add g f)
  | Op.rm n => some (rm g n)
  | Op.init => (index g).map (·.2)

/-- A history of calls. -/
def run (g : Graph P) : List (Op P) → Option (Graph P)
  | [] => some g
  | o :: os =>
    match step g o with
    | none => none
    | some g' => run g' os

end
end Verif.Sg
