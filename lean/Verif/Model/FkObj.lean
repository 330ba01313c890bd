import Verif.Model.SgKin

/-!
# Objects of forward kinematics (src/rx/sg_api.cpp:858-997, include/amino/rx/scene_fk.h)

One scene graph and any number of objects `struct aa_rx_fk` of it, named by the variables that point to
them. Memory is in columns of seven doubles; a column that was never written is `none`. Vectors have
increment one.
-/

namespace Verif.FkObj

open Verif.Tf Verif.Sg

/-- A call returns, ends the process, or is undefined. -/
inductive Out (α : Type) where
  | ok (a : α)
  | abort
  | ub

/-- A value that may be undefined. -/
def Out.ofOption {α : Type} : Option α → Out α
  | some a => .ok a
  | none => .ub

/-- include/amino/rx/scenegraph_internal.h:66-83 `struct aa_rx_fk`. -/
structure Fk where
  cols : List (Option Qutr)
  inHeap : Bool

/-- The scene graph, and what the variables point to (`none`: nothing, or a destroyed object). -/
structure St where
  g : Graph Body
  objs : Nat → Option Fk

/-- The object of variable `k` is replaced. -/
def put (s : St) (k : Nat) (o : Option Fk) : St := { s with objs := fun j => if j = k then o else s.objs j }

/-- The calls. -/
inductive Call where
  | sg (o : Op Body)
  | make (k : Nat) (heap : Bool)
  | all (k : Nat) (q : List ℝ)
  | setRel (k : Nat) (id : Int) (E : Qutr)
  | cpy (dst src : Nat)
  | destroy (k : Nat)

/-- src/rx/sg_api.cpp:858-880 `aa_rx_fk_alloc`, `aa_rx_fk_malloc`. `aa_rx_sg_frame_count`
(78-82) does not ask whether the indices are current. -/
def make (s : St) (k : Nat) (heap : Bool) : Out St :=
  .ok (put s k (some ⟨List.replicate (frameCount s.g) none, heap⟩))

/-- The columns after the loop of `aa_rx_fk_all`. -/
def fill (fk : Fk) (A : List Qutr) : Fk := { fk with cols := A.map some ++ fk.cols.drop A.length }

/-- src/rx/sg_api.cpp:956-976 `aa_rx_fk_all`. A graph that was never indexed has no `config_size`. -/
noncomputable def all (s : St) (k : Nat) (q : List ℝ) : Out St :=
  match s.objs k with
  | none => .ub
  | some fk =>
    if s.g.dirty then .abort
    else
      match configCount s.g with
      | none => .ub
      | some n =>
        if n ≠ q.length then .abort
        else if fk.cols.length < frameCount s.g then .ub
        else
          match Sg.fkAll s.g (fun i => q.getD i 0) 1 with
          | none => .ub
          | some A => .ok (put s k (some (fill fk A)))

/-- Reading the column of a frame through `AA_RX_FK_REF` (scenegraph_internal.h:74-75). -/
def col (fk : Fk) (id : Int) : Out Qutr := if id < 0 then .ub else Out.ofOption (fk.cols[id.toNat]?).join

/-- Writing the column of a frame. -/
def wcol (s : St) (k : Nat) (fk : Fk) (id : Int) (E : Qutr) : Out St :=
  if id < 0 ∨ (fk.cols.length : Int) ≤ id then .ub
  else .ok (put s k (some { fk with cols := fk.cols.set id.toNat (some E) }))

/-- src/rx/sg_api.cpp:938-953 `aa_rx_fk_set_rel`. -/
noncomputable def setRel (s : St) (k : Nat) (id : Int) (E : Qutr) : Out St :=
  match s.objs k with
  | none => .ub
  | some fk =>
    if s.g.dirty then .abort
    else
      match frameParent s.g id with
      | none => .ub
      | some p =>
        if p = frameRoot then wcol s k fk id E
        else
          match col fk p with
          | .ok P => wcol s k fk id (qutrMul P E)
          | .abort => .abort
          | .ub => .ub

/-- src/rx/sg_api.cpp:882-888 `aa_rx_fk_cpy`; `memcpy` onto itself is undefined. -/
def cpy (s : St) (dst src : Nat) : Out St :=
  match s.objs dst, s.objs src with
  | some d, some f =>
    if dst = src ∨ d.cols.length < frameCount s.g ∨ f.cols.length < frameCount s.g then .ub
    else .ok (put s dst (some { d with cols := f.cols.take (frameCount s.g) ++ d.cols.drop (frameCount s.g) }))
  | _, _ => .ub

/-- src/rx/sg_api.cpp:925-936 `aa_rx_fk_destroy`. -/
def destroy (s : St) (k : Nat) : Out St :=
  match s.objs k with
  | none => .ub
  | some fk => if fk.inHeap then .ok (put s k none) else .abort

/-- One call. -/
noncomputable def step (s : St) : Call → Out St
  | .sg o =>
    match Sg.step s.g o with
    | none => .ub
    | some g => .ok { s with g := g }
  | .make k h => make s k h
  | .all k q => all s k q
  | .setRel k id E => setRel s k id E
  | .cpy d f => cpy s d f
  | .destroy k => destroy s k

/-- A history of calls. -/
noncomputable def run (s : St) : List Call → Out St
  | [] => .ok s
  | c :: cs =>
    match step s c with
    | .ok s => run s cs
    | .abort => .abort
    | .ub => .ub

/-- src/rx/sg_api.cpp:896-905 `aa_rx_fk_get_abs_qutr`. -/
def getAbs (s : St) (k : Nat) (id : Int) : Out Qutr :=
  match s.objs k with
  | none => .ub
  | some fk => if id < 0 ∨ (frameCount s.g : Int) < id then .abort else col fk id

/-- src/rx/sg_api.cpp:913-917: the pose of a frame or of the root. -/
noncomputable def colRoot (fk : Fk) (id : Int) : Out Qutr := if id = frameRoot then .ok qutrident else col fk id

/-- src/rx/sg_api.cpp:908-920 `aa_rx_fk_get_rel_qutr`. -/
noncomputable def getRel (s : St) (k : Nat) (parent child : Int) : Out Qutr :=
  match s.objs k with
  | none => .ub
  | some fk =>
    match colRoot fk parent, colRoot fk child with
    | .ok a, .ok b => .ok (qutrCmul a b)
    | _, _ => .ub

end Verif.FkObj
