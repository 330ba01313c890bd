import Verif.Model.Mp

/-!
# Collision checking in Python (python/amino/collision.py:47-192)

One scene graph, initialised and not changed afterwards, one `SceneCollision` and any number of
`SceneCollisionSet`s of it. Geometry, forward kinematics and FCL are those of `Mp.Env` (Model/Mp.lean); a
`SceneFK` given to `check` is one of this scene graph to which a configuration was assigned. Assertions of the
C++ code are on: `none` stands for them.
-/

namespace Verif.PyCl

open Verif.Sg Verif.Fcl Verif.Mp

/-- A frame is given by its number or its name. -/
inductive Key where
  | int (i : Int)
  | str (s : String)

/-- python/amino/scenegraph.py:524-554 `ensure_frame_id_actual`; `none` is an exception (PySg has which). -/
def actual (names : List String) : Key → Option Nat
  | .int i => if 0 ≤ i ∧ i < names.length then some i.toNat else none
  | .str s => names.idxOf? s

/-- What calls answer. -/
inductive Res where
  | unit
  | bool (b : Bool)
  | exc

/-- The set of allowed pairs of the context, and the sets. -/
structure St where
  allowed : ClSet
  sets : List ClSet

/-- The calls; sets are named in the order in which they were made. -/
inductive Op where
  | newSet
  | getItem (s : Nat) (k l : Key)
  | setItem (s : Nat) (k l : Key) (b : Bool)
  | clear (s : Nat)
  | fill (d s : Nat)
  | allow (k l : Key)
  | allowSet (s : Nat)
  | allowConfig (q : Cfg)
  | check (q : Cfg) (s : Option Nat)

/-- collision.py:130-133 `SceneCollision.__init__`; amino_fcl.cpp:266-284. `sg` is what the graph allows. -/
def new (sg : ClSet) : St := ⟨sg, []⟩

/-- Both frames of a pair (collision.py:70-72, 86-88, 140-141). -/
def pair (names : List String) (k l : Key) (f : Nat → Nat → Option (Res × St)) (st : St) :
    Option (Res × St) :=
  match actual names k with
  | none => some (.exc, st)
  | some i =>
    match actual names l with
    | none => some (.exc, st)
    | some j => f i j

/-- amino_fcl.cpp:443-456 `aa_rx_cl_check` with a set. -/
noncomputable def checkInto (e : Env) (a : ClSet) (q : Cfg) (s : ClSet) : Option (Bool × ClSet) :=
  (clClear s).bind fun s =>
    (clCheck e.collide e.scene a (e.fk q) (e.visits (e.fk q)) (some s)).bind fun d =>
      d.set.map fun s => (d.result, s)

/-- amino_fcl.cpp:309-314 `aa_rx_cl_allow_set`. -/
def allowAll (st : St) (s : ClSet) : St := { st with allowed := clFill st.allowed s }

noncomputable def step (e : Env) (names : List String) (st : St) : Op → Option (Res × St)
  -- collision.py:54-56; collision_set.cpp:54-63
  | .newSet => some (.unit, { st with sets := st.sets ++ [clCreate e.scene.length] })
  -- collision.py:61-74
  | .getItem s k l => st.sets[s]?.bind fun c =>
      pair names k l (fun i j => (clGet c i j).map fun b => (.bool b, st)) st
  -- collision.py:76-90
  | .setItem s k l b => st.sets[s]?.bind fun c =>
      pair names k l (fun i j => (clSet c i j b).map fun c => (.unit, { st with sets := st.sets.set s c })) st
  -- collision.py:92-94
  | .clear s => st.sets[s]?.bind fun c => (clClear c).map fun c => (.unit, { st with sets := st.sets.set s c })
  -- collision.py:96-98; undefined from the set itself
  | .fill d s => if d = s then none else st.sets[d]?.bind fun c => st.sets[s]?.map fun c' =>
      (.unit, { st with sets := st.sets.set d (clFill c c') })
  -- collision.py:138-142; amino_fcl.cpp:299-306
  | .allow k l => pair names k l (fun i j => (clSet st.allowed i j true).map fun a =>
      (.unit, { st with allowed := a })) st
  -- collision.py:144-146
  | .allowSet s => st.sets[s]?.map fun c => (.unit, allowAll st c)
  -- collision.py:148-154
  | .allowConfig q => (checkInto e st.allowed q (clCreate e.scene.length)).map fun r => (.unit, allowAll st r.2)
  -- collision.py:156-175
  | .check q none => (clCheck e.collide e.scene st.allowed (e.fk q) (e.visits (e.fk q)) none).map fun d =>
      (.bool d.result, st)
  | .check q (some s) => st.sets[s]?.bind fun c => (checkInto e st.allowed q c).map fun r =>
      (.bool r.1, { st with sets := st.sets.set s r.2 })

noncomputable def run (e : Env) (names : List String) : List Op → St → Option (List Res × St)
  | [], st => some ([], st)
  | o :: os, st => (step e names st o).bind fun r => (run e names os r.2).map fun r' => (r.1 :: r'.1, r'.2)

end Verif.PyCl
