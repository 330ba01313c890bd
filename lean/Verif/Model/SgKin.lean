import Verif.Model.Sg

/-!
# Model: scene graph kinematics (src/rx/scenegraph.cpp, src/rx/sg_api.cpp)

Configuration vectors are functions `Nat → ℝ`; transform arrays are lists of columns.
-/

namespace Verif.Sg

open Verif.Tf

/-- include/amino/rx/scenegraph_internal.h:88-131: the numeric members of a frame. -/
structure Body where
  E : Qutr
  R : M3
  S : Duqu
  offset : ℝ
  axis : V3

/-- src/rx/scenegraph.cpp:59-74, 105-118: the constructors, for non-null `q` and `v`. -/
noncomputable def mkBody (q : Quat) (v : V3) (offset : ℝ) (axis : V3) : Body :=
  ⟨⟨q, v⟩, quat2rotmat q, qutr2duqu ⟨q, v⟩, offset, axis⟩

/-- src/rx/scenegraph.cpp:70-73: the constructor with possibly null `q` and `v`: `E` gets the
identity for a null pointer, but lines 72 and 73 dereference the pointers themselves. -/
noncomputable def mkBodyPtr (q : Option Quat) (v : Option V3) (offset : ℝ) (axis : V3) :
    Option Body :=
  match q, v with
  | some q, some v => some (mkBody q v offset axis)
  | _, _ => none

/-- src/rx/scenegraph.cpp:157-161, 177-190, 212-221 `tf_rel`; `x` is `q[config_index]`. -/
noncomputable def tfRel (k : Kind) (b : Body) (x : ℝ) : Qutr :=
  match k with
  | Kind.fixed => b.E
  | Kind.prismatic =>
    let qo := x + b.offset
    qutrMul b.E ⟨qident, ⟨qo * b.axis.x, qo * b.axis.y, qo * b.axis.z⟩⟩
  | Kind.revolute =>
    let qo := x + b.offset
    ⟨qmul b.E.q (axang2quat ⟨b.axis, qo⟩), b.E.v⟩

/-- Result of `tfmat_rel`: the 12 doubles of the output and the number of doubles written past it. -/
structure TfmatOut where
  T : Tfm
  overrun : Nat

/-- src/rx/scenegraph.cpp:163-168, 192-200, 243-252 `tfmat_rel`.  The fixed frame copies 9 doubles
for the 3 of the translation. -/
noncomputable def tfmatRel (k : Kind) (b : Body) (x : ℝ) : TfmatOut :=
  match k with
  | Kind.fixed => ⟨⟨b.R, b.E.v⟩, 6⟩
  | Kind.prismatic =>
    let qo := x + b.offset
    ⟨⟨b.R, ⟨b.E.v.x + qo * b.axis.x, b.E.v.y + qo * b.axis.y, b.E.v.z + qo * b.axis.z⟩⟩, 0⟩
  | Kind.revolute =>
    let qo := x + b.offset
    ⟨⟨mul9 b.R (axang2rotmat2 ⟨b.axis, qo⟩), b.E.v⟩, 0⟩

/-- Result of `duqu_rel`: the frame (whose member `S` may have been changed) and what the output
array holds afterwards. -/
structure DuquOut where
  body : Body
  out : Duqu

/-- src/rx/scenegraph.cpp:170-174, 202-210, 224-241 `duqu_rel` with the output array holding `out`
before the call.  The prismatic frame writes to its own member `S` instead of the output. -/
noncomputable def duquRel (k : Kind) (b : Body) (x : ℝ) (out : Duqu) : DuquOut :=
  match k with
  | Kind.fixed => ⟨b, b.S⟩
  | Kind.prismatic =>
    let qo := x + b.offset
    let v : V3 := ⟨b.E.v.x + qo * b.axis.x, b.E.v.y + qo * b.axis.y, b.E.v.z + qo * b.axis.z⟩
    ⟨{ b with S := qutr2duqu ⟨b.E.q, v⟩ }, out⟩
  | Kind.revolute =>
    let qo := x + b.offset
    let r := qmul b.E.q (axang2quat ⟨b.axis, qo⟩)
    ⟨b, ⟨r, qmulVQ ⟨b.E.v.x / 2, b.E.v.y / 2, b.E.v.z / 2⟩ r⟩⟩

/-- `q[config_index]` of an indexed frame; a fixed frame does not read it. -/
def jointVar (e : Entry Body) (q : Nat → ℝ) : Option ℝ :=
  match e.frame.kind with
  | Kind.fixed => some 0
  | _ => e.configIndex.map q

/-- `f->tf_rel( q, E_rel )` for an indexed frame. -/
noncomputable def entryRel (q : Nat → ℝ) (e : Entry Body) : Option Qutr :=
  (jointVar e q).map (tfRel e.frame.kind e.frame.body)

/-- Column `parent_id` of an array of columns: undefined for a negative or out of range id. -/
def parentCol {α : Type} (abs : List α) (id : Int) : Option α :=
  if id < 0 then none else abs[id.toNat]?

/-- src/rx/sg_api.cpp:256-275 (329-349, 366-386): the loop of `aa_rx_sg_tf` (`aa_rx_sg_tfmat`,
`aa_rx_sg_duqu`); the accumulators hold the columns of `TF_rel` and `TF_abs` written so far. -/
def absLoop {α : Type} (rel : Entry Body → Option α) (mul : α → α → α) :
    List (Option (Entry Body)) → List α → List α → Option (List α × List α)
  | [], R, A => some (R, A)
  | none :: _, _, _ => none
  | some e :: es, R, A =>
    match rel e with
    | none => none
    | some r =>
      if e.frame.inGlobal then absLoop rel mul es (R ++ [r]) (A ++ [r])
      else
        match parentCol A e.parentId with
        | none => none
        | some p => absLoop rel mul es (R ++ [r]) (A ++ [mul p r])

/-- src/rx/sg_api.cpp:241-277 `aa_rx_sg_tf`: the columns of `TF_rel` and `TF_abs`. -/
noncomputable def sgTf (g : Graph Body) (n : Nat) (q : Nat → ℝ) :
    Option (List Qutr × List Qutr) := absLoop (entryRel q) qutrMul (g.frames.take n) [] []

/-- src/rx/sg_api.cpp:316-350 `aa_rx_sg_tfmat`: the columns; the doubles a fixed frame writes past
its column are in the next column, which is written afterwards, or past the end of the array (the
model does not follow these). -/
noncomputable def sgTfmat (g : Graph Body) (n : Nat) (q : Nat → ℝ) : Option (List Tfm × List Tfm) :=
  absLoop (fun e => (jointVar e q).map (fun x => (tfmatRel e.frame.kind e.frame.body x).T)) tfmMul
    (g.frames.take n) [] []

/-- src/rx/sg_api.cpp:352-387 `aa_rx_sg_duqu` where every column of `TF_rel` holds `out` before. -/
noncomputable def sgDuqu (g : Graph Body) (n : Nat) (q : Nat → ℝ) (out : Duqu) :
    Option (List Duqu × List Duqu) :=
  absLoop (fun e => (jointVar e q).map (fun x => (duquRel e.frame.kind e.frame.body x out).out))
    duquMul (g.frames.take n) [] []

/-- src/rx/sg_api.cpp:280-303 `aa_rx_sg_fill_tf_abs`: a strided vector is copied first.  `data` is
the memory at `q->data`. -/
noncomputable def fillTfAbs (g : Graph Body) (data : Nat → ℝ) (inc : Nat) : Option (List Qutr) :=
  let qp : Nat → ℝ := if inc ≠ 1 then (fun i => data (i * inc)) else data
  (sgTf g (frameCount g) qp).map (·.2)

/-- src/rx/sg_api.cpp:938-976 `aa_rx_fk_set_rel`, `aa_rx_fk_all`: the loop. -/
noncomputable def fkLoop (q : Nat → ℝ) :
    List (Option (Entry Body)) → List Qutr → Option (List Qutr)
  | [], abs => some abs
  | none :: _, _ => none
  | some e :: es, abs =>
    match entryRel q e with
    | none => none
    | some r =>
      if e.parentId = frameRoot then fkLoop q es (abs ++ [r])
      else
        match parentCol abs e.parentId with
        | none => none
        | some p => fkLoop q es (abs ++ [qutrMul p r])

/-- src/rx/sg_api.cpp:956-976 `aa_rx_fk_all`: reads `q->data` and ignores `q->inc`. -/
noncomputable def fkAll (g : Graph Body) (data : Nat → ℝ) (_inc : Nat) : Option (List Qutr) :=
  fkLoop data g.frames []

open Classical in
/-- src/rx/sg_api.cpp:413-461: the loop of `aa_rx_sg_tf_update`; accumulators: columns of `TF_rel`,
`TF_abs` and the array `updated`. -/
noncomputable def updLoop (q0 q : Nat → ℝ) (rel0 abs0 : List Qutr) :
    List (Option (Entry Body)) → List Qutr → List Qutr → List Bool →
      Option (List Qutr × List Qutr)
  | [], rel, abs, _ => some (rel, abs)
  | none :: _, _, _, _ => none
  | some e :: es, rel, abs, upd =>
    let i := rel.length
    let inGlobal := e.frame.inGlobal
    -- the part of the switch shared by fixed frames and unchanged joints
    let parentUpdated : Option Bool :=
      if inGlobal then some false else parentCol upd e.parentId
    let sw : Option (Qutr × Bool) :=
      match e.frame.kind with
      | Kind.fixed =>
        match parentUpdated with
        | none => none
        | some u => some (tfRel Kind.fixed e.frame.body 0, u)
      | k =>
        match e.configIndex with
        | none => none
        | some c =>
          if |q0 c - q c| ≤ 0 then
            match rel0[i]?, parentUpdated with
            | some r, some u => some (r, u)
            | _, _ => none
          else some (tfRel k e.frame.body (q c), true)
    match sw with
    | none => none
    | some (r, true) =>
      if inGlobal then updLoop q0 q rel0 abs0 es (rel ++ [r]) (abs ++ [r]) (upd ++ [true])
      else
        match parentCol abs e.parentId with
        | none => none
        | some p =>
          updLoop q0 q rel0 abs0 es (rel ++ [r]) (abs ++ [qutrMul p r]) (upd ++ [true])
    | some (r, false) =>
      match abs0[i]? with
      | none => none
      | some a => updLoop q0 q rel0 abs0 es (rel ++ [r]) (abs ++ [a]) (upd ++ [false])

/-- src/rx/sg_api.cpp:391-462 `aa_rx_sg_tf_update`. -/
noncomputable def sgTfUpdate (g : Graph Body) (n : Nat) (q0 q : Nat → ℝ) (rel0 abs0 : List Qutr) :
    Option (List Qutr × List Qutr) := updLoop q0 q rel0 abs0 (g.frames.take n) [] [] []

/-- src/rx/sg_api.cpp:681-711 `aa_rx_sg_rel_tf`. -/
noncomputable def relTf (fromId toId : Int) (abs : List Qutr) : Option Qutr :=
  if fromId = frameRoot then
    if toId = frameRoot then some qutrident else parentCol abs toId
  else if toId = frameRoot then (parentCol abs fromId).map qutrConj
  else
    match parentCol abs fromId, parentCol abs toId with
    | some a, some b => some (qutrCmul a b)
    | _, _ => none

/-- src/rx/sg_api.cpp:908-920 `aa_rx_fk_get_rel_qutr`. -/
noncomputable def fkGetRel (parent child : Int) (abs : List Qutr) : Option Qutr :=
  let col (id : Int) : Option Qutr := if id = frameRoot then some qutrident else parentCol abs id
  match col parent, col child with
  | some a, some b => some (qutrCmul a b)
  | _, _ => none

/-- src/rx/sg_api.cpp:724-738 `aa_rx_sg_reparent_name`: parent and `E` are replaced; `R` and `S`
are not.  An unknown frame is a null dereference. -/
def reparentName (g : Graph Body) (newParent frame : String) (E1 : Qutr) : Option (Graph Body) :=
  match find g.map frame with
  | none => none
  | some f =>
    some { g with
      map := mapPut g.map { f with parent := newParent, body := { f.body with E := E1 } }
      dirty := true }

end Verif.Sg
