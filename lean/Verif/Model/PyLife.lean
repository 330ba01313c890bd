import Mathlib.Logic.Relation

/-!
# Lifetimes of the Python objects (C131)

python/amino/scenegraph.py, kinematics.py, collision.py, scenewin.py and motionplanning.py: every object owns an
object of the C library, which `__del__` destroys.  Objects of C keep plain pointers to others.  Python finalizes
objects that are not reachable any more; the order is left open (the descriptors of `SceneCollisionDist` make
cycles, and these are finalized in no fixed order).

An object of C is named by the Python object that owns it.  A step that accesses an object of C that is destroyed
has no result.  A method may access everything that the objects named in the call refer to, in Python or in C, directly
or not.  Calls with unbound variables or arguments of a wrong class raise exceptions, and leave the state as it is.
-/

namespace Verif.PyLife

open Relation

/-- The classes; `desc` are the descriptors of `SceneCollisionDist` (python/amino/collision.py:240-278). -/
inductive Cls
  | graph
  | sub
  | fk
  | dk
  | ik
  | clSet
  | cl
  | dist
  | desc
  | win
  | plan
  deriving DecidableEq

/-- an object: the attributes that refer to objects of these classes, and the pointers in the C object. -/
structure Obj where
  cls : Cls
  refs : List Nat
  raw : List Nat

structure World where
  objs : Nat → Option Obj
  c : Nat → Bool
  next : Nat
  vars : Nat → Option Nat
  /-- `s_win`, src/rx/sdl_win.c:66 -/
  win : Option Nat
  /-- the thread of `aa_rx_win_run_async` is in the display loop -/
  running : Bool
  /-- `SceneWin.scenegraph = …` is between its first and last line -/
  pending : Option (Nat × Nat)

def init : World := ⟨fun _ => none, fun _ => false, 0, fun _ => none, none, false, none⟩

def Ref (w : World) (a b : Nat) : Prop := ∃ o, w.objs a = some o ∧ b ∈ o.refs

def Ptr (w : World) (a b : Nat) : Prop := ∃ o, w.objs a = some o ∧ b ∈ o.raw

/-- variables, and while a setter runs its arguments. -/
def Root (w : World) (r : Nat) : Prop :=
  (∃ v, w.vars v = some r) ∨ ∃ o g, w.pending = some (o, g) ∧ (r = o ∨ r = g)

/-- what Python keeps. -/
def Reach (w : World) (o : Nat) : Prop := ∃ r, Root w r ∧ ReflTransGen (Ref w) r o

/-- what a method called with `a` may access. -/
def Touch (w : World) (a b : Nat) : Prop := ReflTransGen (fun x y => Ref w x y ∨ Ptr w x y) a b

def Ok (w : World) (as : List Nat) : Prop := ∀ a ∈ as, ∀ b, Touch w a b → w.c b = true

def setVar (w : World) (v : Nat) (o : Option Nat) : World :=
  { w with vars := fun u => if u = v then o else w.vars u }

def setObj (w : World) (o : Nat) (b : Option Obj) : World :=
  { w with objs := fun x => if x = o then b else w.objs x }

def setC (w : World) (o : Nat) (b : Bool) : World :=
  { w with c := fun x => if x = o then b else w.c x }

/-- a new object in variable `v`. -/
def alloc (w : World) (v : Nat) (b : Obj) : World :=
  { setC (setVar (setObj w w.next (some b)) v (some w.next)) w.next true with next := w.next + 1 }

/-- the object in variable `v`, if it is of class `k`. -/
def look (w : World) (v : Nat) (k : Cls) : Option Nat :=
  (w.vars v).bind fun o => (w.objs o).bind fun b => if b.cls = k then some o else none

/-- the pointers kept by the C object of `o`. -/
def rawOf (w : World) (o : Nat) : List Nat :=
  match w.objs o with
  | some b => b.raw
  | none => []

inductive Op
  | graph (v : Nat)
  | copy (v s : Nat)
  | sub (v g : Nat)
  | fk (v g : Nat)
  | dk (v s f : Nat)
  | ik (v s : Nat)
  | clSet (v g : Nat)
  | cl (v g : Nat)
  | dist (v k : Nat)
  | win (v : Nat)
  | plan (v s : Nat)
  | call (v : Nat) (args : List Nat)
  | get (v x i : Nat)
  | bind (v x : Nat)
  | drop (v : Nat)
  | setSg (v g : Nat)
  | setSgEnd
  | start (v : Nat)
  | frame
  | done
  | collect (o : Nat)

open Classical in
/-- go on with `w'` if the objects of C are there. -/
noncomputable def guard (w : World) (as : List Nat) (w' : World) : Option World :=
  if Ok w as then some w' else none

/-- a constructor with one argument. -/
noncomputable def make (w : World) (v a : Nat) (k : Cls) (b : Nat → Obj) : Option World :=
  match look w a k with
  | some o => guard w [o] (alloc w v (b o))
  | none => some w

/-- `SceneCollisionDist.__init__`, python/amino/collision.py:282-286: the object and its two descriptors. -/
def allocDist (w : World) (v k : Nat) : World :=
  let d := w.next
  let w := alloc w v ⟨.dist, [k, d + 1, d + 2], [k]⟩
  { setC (setC (setObj (setObj w (d + 1) (some ⟨.desc, [d], []⟩)) (d + 2) (some ⟨.desc, [d], []⟩)) (d + 1) true)
    (d + 2) true with next := d + 3 }

/-- Statements of the program; none is executed in the middle of a setter. -/
noncomputable def stmt (w : World) : Op → Option World
  -- python/amino/scenegraph.py:337-341 `SceneGraph.__init__`
  | .graph v => some (alloc w v ⟨.graph, [], []⟩)
  -- scenegraph.py:629-633 `SceneGraph.copy`
  | .copy v s => make w v s .graph fun _ => ⟨.graph, [], []⟩
  -- scenegraph.py:609-627 `SceneGraph.__getitem__`, 726-729; src/rx/scene_kin.c: `scenegraph`
  | .sub v g => make w v g .graph fun g => ⟨.sub, [g], [g]⟩
  -- kinematics.py:55-58; src/rx/sg_api.cpp:873-880
  | .fk v g => make w v g .graph fun g => ⟨.fk, [g], [g]⟩
  -- kinematics.py:150-157: `opts` points nowhere
  | .dk v s f =>
    match look w s .sub, look w f .fk with
    | some s, some f => some (alloc w v ⟨.dk, [s, f], []⟩)
    | _, _ => some w
  -- kinematics.py:263-267; src/rx/scene_ik.c:74-104 `ssg` and `fk->sg`
  | .ik v s => make w v s .sub fun s => ⟨.ik, [s], s :: rawOf w s⟩
  -- collision.py:54-56; src/rx/collision_set.cpp:54-63
  | .clSet v g => make w v g .graph fun g => ⟨.clSet, [g], []⟩
  -- collision.py:130-133; src/rx/amino_fcl.cpp:266-284
  | .cl v g => make w v g .graph fun g => ⟨.cl, [g], [g]⟩
  -- collision.py:282-286; src/rx/amino_fcl.cpp:555-567
  | .dist v k =>
    match look w k .cl with
    | some k => guard w [k] (allocDist w v k)
    | none => some w
  -- scenewin.py:73-75; src/rx/sdl_win.c:178-195: NULL if there ever was a window
  | .win v =>
    match w.win with
    | none => some { alloc w v ⟨.win, [], []⟩ with win := some w.next }
    | some _ => some (setC (alloc w v ⟨.win, [], []⟩) w.next false)
  -- motionplanning.py:53-54; src/rx/mp/scene_state_space.cpp:53-57
  | .plan v s => make w v s .sub fun s => ⟨.plan, [], s :: rawOf w s⟩
  -- any method of the object in `v`, with more objects as arguments
  | .call v args => guard w ((v :: args).filterMap w.vars) w
  -- reading an attribute
  | .get v x i =>
    match (w.vars x).bind fun o => (w.objs o).bind fun b => b.refs[i]? with
    | some p => some (setVar w v (some p))
    | none => some w
  | .bind v x => some (setVar w v (w.vars x))
  | .drop v => some (setVar w v none)
  -- scenewin.py:106-107: up to the call of `aa_rx_win_set_sg`
  | .setSg v g =>
    match look w v .win, look w g .graph with
    | some o, some g =>
      guard w [g] { setObj w o (some ⟨.win, [g], rawOf w o⟩) with pending := some (o, g) }
    | _, _ => some w
  -- scenewin.py:87-97 in the background; src/rx/sdl_win.c:822-841
  | .start v =>
    match look w v .win with
    | some _ => w.win.elim (some w) fun o => if w.c o = true then some { w with running := true } else none
    | none => some w
  | _ => some w

open Classical in
noncomputable def step (w : World) : Op → Option World
  -- a frame of the display loop, src/rx/sdl_win.c:439-459, 539-557
  | .frame => if w.running then w.win.elim (some w) fun o => guard w [o] w else some w
  -- the loop ends, src/rx/sdl_win.c:905-914
  | .done => some { w with running := false }
  -- `__del__`: the destructors access nothing but the object itself
  | .collect o =>
    match w.objs o with
    | none => some w
    | some b =>
      if Reach w o then some w
      else if w.c o = true then some (setC (setObj w o none) o false)
      -- aa_rx_win_destroy(NULL), src/rx/sdl_win.c:258
      else if b.cls = .win ∧ w.win ≠ some o then some (setObj w o none)
      else none
  -- scenewin.py:108: `aa_rx_win_set_sg`, src/rx/sdl_win.c:461-493
  | .setSgEnd =>
    match w.pending with
    | none => some w
    | some (o, g) =>
      if w.c o = true ∧ Ok w [g] then some { setObj w o (some ⟨.win, [g], [g]⟩) with pending := none } else none
  | op => if w.pending = none then stmt w op else some w

noncomputable def run : World → List Op → Option World
  | w, [] => some w
  | w, o :: os => (step w o).bind fun w => run w os

end Verif.PyLife
