import Verif.Model.Sg

/-!
# Model: collision sets and allowed collisions
(src/rx/collision_set.cpp, src/rx/sg_api.cpp, src/rx/amino_fcl.cpp)

`std::vector<bool>` is a list.  `none` is a failed assertion, a call of `abort` or undefined
behaviour.  The collision geometry and the FCL library are left out.
-/

namespace Verif.Sg

/-! ## Sets of pairs -/

/-- collision_set.cpp:49-52 `struct aa_rx_cl_set`. -/
structure ClSet where
  n : Nat
  v : List Bool
  deriving DecidableEq, Repr

/-- collision_set.cpp:54-63 `aa_rx_cl_set_create`, for a graph of `n` frames. -/
def clCreate (n : Nat) : ClSet := ⟨n, List.replicate (n * n) false⟩

/-- collision_set.cpp:72-88 `cl_set_i`. -/
def clIndex (s : ClSet) (ii jj : Int) : Option Nat :=
  if ii < 0 ∨ jj < 0 then none
  else
    let i := ii.toNat
    let j := jj.toNat
    let r := if i < j then s.n * j + i else s.n * i + j
    if r < s.v.length then some r else none

/-- collision_set.cpp:92-99 `aa_rx_cl_set_set`. -/
def clSet (s : ClSet) (i j : Int) (b : Bool) : Option ClSet :=
  (clIndex s i j).map (fun r => { s with v := s.v.set r b })

/-- collision_set.cpp:101-107 `aa_rx_cl_set_fill`: `n` is not changed. -/
def clFill (dst src : ClSet) : ClSet := { dst with v := src.v }

/-- collision_set.cpp:109-115 `aa_rx_cl_set_get`. -/
def clGet (s : ClSet) (i j : Int) : Option Bool :=
  (clIndex s i j).bind (fun r => s.v[r]?)

/-- collision_set.cpp:117-125 `aa_rx_sg_cl_set_copy`, given the index pairs of the scene graph. -/
def clSetCopy : List (Int × Int) → ClSet → Option ClSet
  | [], s => some s
  | p :: ps, s => (clSet s p.1 p.2 true).bind (clSetCopy ps)

/-- collision_set.cpp:134-138: the inner loop of `aa_rx_cl_set_merge`, `k` iterations left from
`j`. -/
def clMergeRow (src : ClSet) (i : Nat) : Nat → Nat → ClSet → Option ClSet
  | 0, _, d => some d
  | k + 1, j, d =>
    match clGet src i j with
    | none => none
    | some true => (clSet d i j true).bind (clMergeRow src i k (j + 1))
    | some false => clMergeRow src i k (j + 1) d

/-- collision_set.cpp:133-140: the outer loop. -/
def clMergeLoop (src : ClSet) : Nat → Nat → ClSet → Option ClSet
  | 0, _, d => some d
  | k + 1, i, d => (clMergeRow src i i 0 d).bind (clMergeLoop src k (i + 1))

/-- collision_set.cpp:128-141 `aa_rx_cl_set_merge`. -/
def clMerge (d src : ClSet) : Option ClSet :=
  if d.n = src.n then clMergeLoop src d.n 0 d else none

/-- collision_set.cpp:143-148 `aa_rx_cl_set_clear`. -/
def clClear (s : ClSet) : Option ClSet :=
  if s.v.length = s.n * s.n then some { s with v := List.replicate s.v.length false } else none

/-! ## Histories of collision sets -/

/-- The calls; sets are named by numbers. -/
inductive ClOp
  | create (h n : Nat)
  | destroy (h : Nat)
  | set (h : Nat) (i j : Int) (b : Bool)
  | fill (dst src : Nat)
  | merge (dst src : Nat)
  | clear (h : Nat)
  deriving DecidableEq, Repr

/-- The live sets. -/
abbrev ClStore := Nat → Option ClSet

/-- One call. Filling a set from itself is undefined: `assign` takes no iterators into its own vector. -/
def clStep (st : ClStore) : ClOp → Option ClStore
  | ClOp.create h n => some (Function.update st h (some (clCreate n)))
  | ClOp.destroy h => (st h).map (fun _ => Function.update st h none)
  | ClOp.set h i j b =>
    (st h).bind (fun s => (clSet s i j b).map (fun s' => Function.update st h (some s')))
  | ClOp.fill d s =>
    if d = s then none else (st d).bind (fun a => (st s).map (fun b => Function.update st d (some (clFill a b))))
  | ClOp.merge d s =>
    (st d).bind (fun a => (st s).bind (fun b => (clMerge a b).map (fun c =>
      Function.update st d (some c))))
  | ClOp.clear h =>
    (st h).bind (fun s => (clClear s).map (fun s' => Function.update st h (some s')))

/-- A history. -/
def clRun (st : ClStore) : List ClOp → Option ClStore
  | [] => some st
  | o :: os => (clStep st o).bind (fun st' => clRun st' os)

/-! ## Allowed collisions of a scene graph -/

/-- The members of `SceneGraph` for allowed collisions (scenegraph_internal.h:203-215).  The pointers
in `allowed` point to the names inside frame objects; the object number of a frame is its `body`,
and no number is used twice.  The iteration order of `std::set` on pointers has no effect.
`dirtyCol` is `none` while the member is indeterminate. -/
structure ColGraph where
  g : Graph Nat
  next : Nat
  allowed : List (Nat × Nat)
  idx : List (Int × Int)
  dirtyCol : Option Bool
  deriving DecidableEq, Repr

/-- scenegraph.cpp:269-272: the constructor does not initialize `dirty_collision`. -/
def colCreate : ColGraph := ⟨create, 0, [], [], none⟩

/-- scenegraph.cpp:379-391 `SceneGraph::add` of a new frame object.  `dirty_collision` is not
changed. -/
def colAdd (c : ColGraph) (name parent : String) (k : Kind) (config : String) : ColGraph :=
  { c with g := add c.g ⟨name, parent, k, config, c.next⟩, next := c.next + 1 }

/-- sg_api.cpp:197-212 `aa_rx_sg_rm_frame`: the object is deleted, `allowed` is not changed. -/
def colRm (c : ColGraph) (name : String) : ColGraph := { c with g := rm c.g name }

/-- sg_api.cpp:62-65 `aa_rx_sg_init`.  `dirty_collision` is not changed. -/
def colInit (c : ColGraph) : Option ColGraph := (index c.g).map (fun r => { c with g := r.2 })

/-- `frame_map[n]->name.c_str()`: a pointer to the name in the frame object.  For an unknown name
`operator[]` inserts a null pointer, which is dereferenced. -/
def namePtr (c : ColGraph) (n : String) : Option Nat := (find c.g.map n).map (·.body)

/-- The string a pointer in `allowed` points to, if the object still exists. -/
def deref (c : ColGraph) (o : Nat) : Option String :=
  (c.g.map.find? (fun f => f.body = o)).map (·.name)

/-- sg_api.cpp:822-842 `aa_rx_sg_allow_collision_name`. -/
def allowName (c : ColGraph) (frame0 frame1 : String) (allowed : Bool) : Option ColGraph :=
  let s := if frame0 < frame1 then (frame0, frame1) else (frame1, frame0)
  match namePtr c s.1, namePtr c s.2 with
  | some p0, some p1 =>
    some { c with
      allowed := if allowed then
          (if (p0, p1) ∈ c.allowed then c.allowed else c.allowed ++ [(p0, p1)])
        else c.allowed.filter (fun p => p ≠ (p0, p1))
      dirtyCol := some true }
  | _, _ => none

/-- sg_api.cpp:813-820 `aa_rx_sg_allow_collision`; `aa_rx_sg_frame_name` aborts on a dirty graph. -/
def allowId (c : ColGraph) (id0 id1 : Int) (allowed : Bool) : Option ColGraph :=
  if c.g.dirty then none
  else
    match frameName c.g id0, frameName c.g id1 with
    | some n0, some n1 => allowName c n0 n1 allowed
    | _, _ => none

/-- amino_fcl.cpp:232-235: the index pairs of the allowed pairs of names. -/
def allowedIdx (c : ColGraph) : List (Nat × Nat) → Option (List (Int × Int))
  | [] => some []
  | p :: ps =>
    match deref c p.1, deref c p.2, allowedIdx c ps with
    | some a, some b, some l => some ((frameId c.g a, frameId c.g b) :: l)
    | _, _, _ => none

/-- amino_fcl.cpp:218-238 `aa_rx_sg_cl_init`. -/
def clInit (c : ColGraph) : Option ColGraph :=
  match c.dirtyCol with
  | none => none
  | some false => some c
  | some true =>
    if c.g.dirty then none
    else (allowedIdx c c.allowed).map (fun l => { c with idx := l, dirtyCol := some false })

/-- amino_fcl.cpp:266-284 `aa_rx_cl_create`: the set of allowed collisions of the context. -/
def clContext (c : ColGraph) : Option ClSet :=
  match c.dirtyCol with
  | some false =>
    if c.g.dirty then none else clSetCopy c.idx (clCreate (frameCount c.g))
  | _ => none

/-- Calls on a scene graph. -/
inductive ColOp
  | add (name parent : String) (k : Kind) (config : String)
  | rm (name : String)
  | init
  | allow (id0 id1 : Int) (b : Bool)
  | allowName (n0 n1 : String) (b : Bool)
  | dirtyGeom
  | clInit
  deriving DecidableEq, Repr

/-- One call.  `dirtyGeom` is scenegraph.cpp:421-428 `aa_rx_sg_dirty_geom` (adding geometry). -/
def colStep (c : ColGraph) : ColOp → Option ColGraph
  | ColOp.add n p k q => some (colAdd c n p k q)
  | ColOp.rm n => some (colRm c n)
  | ColOp.init => colInit c
  | ColOp.allow i j b => allowId c i j b
  | ColOp.allowName a b x => Sg.allowName c a b x
  | ColOp.dirtyGeom => some { c with dirtyCol := some true }
  | ColOp.clInit => Sg.clInit c

/-- A history. -/
def colRun (c : ColGraph) : List ColOp → Option ColGraph
  | [] => some c
  | o :: os => (colStep c o).bind (fun c' => colRun c' os)

end Verif.Sg
