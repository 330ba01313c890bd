import Verif.Model.SgKin

/-!
# Model: scene graphs of Python (python/amino/scenegraph.py, python/amino/kinematics.py)

Names, ids and configurations of `SceneGraph` and the forward kinematics object `SceneFK`.  The C
functions called are those of `Verif.Sg`; ctypes converts the ids (all in the range of a C `int`
after the checks made) and the names (strings without null characters) faithfully.

An outcome is a value, a Python exception, the end of the process by `abort`, or undefined
behaviour of the C code.  `stale` is the id that `aa_rx_sg_frame_id`, which does not check that the
indices are clean, gives for a changed graph before the next `init`; it is not modelled further.

Vectors are the lists of their elements: `DVec(n)` owns memory cleared by ctypes (C124).
-/

namespace Verif.PySg

open Verif.Sg Verif.Tf

/-- The Python exceptions raised. -/
inductive Exc
  | value
  | index
  | lookup
  | type
  deriving DecidableEq, Repr

/-- Outcome of a call. -/
inductive Res (α : Type)
  | ok (a : α)
  | exc (e : Exc)
  | abort
  | ub
  | stale
  deriving DecidableEq, Repr

def Res.bind {α β : Type} : Res α → (α → Res β) → Res β
  | .ok a, f => f a
  | .exc e, _ => .exc e
  | .abort, _ => .abort
  | .ub, _ => .ub
  | .stale, _ => .stale

def Res.ofOption {α : Type} : Option α → Res α
  | none => .ub
  | some a => .ok a

section
variable {P : Type}

/-- src/rx/scenegraph.cpp:430-441 `aa_rx_sg_ensure_clean_frames`. -/
def clean {α : Type} (g : Graph P) (r : Res α) : Res α := if g.dirty then .abort else r

/-- scenegraph.py:442-445 `init`: the result of `aa_rx_sg_init` is not looked at. -/
def init (g : Graph P) : Res (Graph P) := (Res.ofOption (Sg.index g)).bind (fun r => .ok r.2)

/-- scenegraph.py:454-457 `config_count`; sg_api.cpp:67-76. -/
def configCount (g : Graph P) : Res Nat := clean g (Res.ofOption (Sg.configCount g))

/-- scenegraph.py:459-462 `frame_count`; sg_api.cpp:78-82. -/
def frameCount (g : Graph P) : Nat := Sg.frameCount g

/-- scenegraph.py:464-467 `config_id`. -/
def configId (g : Graph P) (n : String) : Res Int := clean g (.ok (Sg.configId g n))

/-- scenegraph.py:469-472 `frame_id`. -/
def frameId (g : Graph P) (n : String) : Res Int :=
  if n = "" then .ok frameRoot else if g.dirty then .stale else .ok (Sg.frameId g n)

/-- scenegraph.py:474-477 `config_name`: no check of the id. -/
def configName (g : Graph P) (i : Int) : Res String :=
  clean g (Res.ofOption (Sg.configName g i))

/-- scenegraph.py:479-489 `frame_name`. -/
def frameName (g : Graph P) (i : Int) : Res String :=
  if i ≥ (frameCount g : Int) ∨ i < frameNone then .exc .index
  else clean g (Res.ofOption (Sg.frameName g i))

/-- A frame or a configuration variable as given by the user: a name or an id. -/
inductive Key
  | str (s : String)
  | int (i : Int)
  deriving DecidableEq, Repr

/-- scenegraph.py:491-505 `ensure_config_id`. -/
def ensureConfigId (g : Graph P) : Key → Res Int
  | .str s => (configId g s).bind (fun i =>
      if i = configNone then .exc .value else configId g s)
  | .int i => (configCount g).bind (fun n => if i ≥ (n : Int) ∨ i < 0 then .exc .index else .ok i)

/-- scenegraph.py:507-522 `ensure_config_name`: for an id it returns `self.frame_name(value)`. -/
def ensureConfigName (g : Graph P) : Key → Res String
  | .str s => (configId g s).bind (fun i => if i = configNone then .exc .value else .ok s)
  | .int i => (configCount g).bind (fun n =>
      if i ≥ (n : Int) ∨ i < 0 then .exc .index else frameName g i)

/-- scenegraph.py:524-539 `ensure_frame_id`. -/
def ensureFrameId (g : Graph P) : Key → Res Int
  | .str s => (frameId g s).bind (fun i => if i = frameNone then .exc .value else .ok i)
  | .int i => if i ≥ (frameCount g : Int) ∨ i ≤ frameNone then .exc .index else .ok i

/-- scenegraph.py:553: the exception of `ensure_frame_id_actual`.  For a name, making the message
`"Invalid frame id: %d" % value` raises a `TypeError` first. -/
def notActual : Key → Exc
  | .str _ => .type
  | .int _ => .index

/-- scenegraph.py:541-554 `ensure_frame_id_actual`. -/
def ensureFrameIdActual (g : Graph P) (k : Key) : Res Int :=
  (ensureFrameId g k).bind (fun r => if r < 0 then .exc (notActual k) else .ok r)

/-- scenegraph.py:556-571 `ensure_frame_name`. -/
def ensureFrameName (g : Graph P) : Key → Res String
  | .str s => (frameId g s).bind (fun i => if i = frameNone then .exc .value else .ok s)
  | .int i => if i ≥ (frameCount g : Int) ∨ i ≤ frameNone then .exc .index else frameName g i

/-- scenegraph.py:603-607 `get_parent`. -/
def getParent (g : Graph P) (k : Key) : Res String :=
  (ensureFrameId g k).bind (fun i =>
    (clean g (Res.ofOption (Sg.frameParent g i))).bind (fun p => ensureFrameName g (.int p)))

variable {K : Type}

/-- A configuration as given by the user: a dictionary (its items in insertion order), a sequence
(a `DVec`, a list or a tuple) or an integer. -/
inductive Cfg (K : Type)
  | dict (l : List (String × K))
  | seq (l : List K)
  | size (n : Nat)
  deriving DecidableEq, Repr

/-- scenegraph.py:584-585: the loop over the items; `DVec.__setitem__` is mat.py:161-165.  The
second component is the vector when the loop ends, by an exception or not. -/
def setKeys (g : Graph P) : List (String × K) → List K → Res Unit × List K
  | [], v => (.ok (), v)
  | kx :: l, v =>
    match configId g kx.1 with
    | .ok i =>
      if i < 0 ∨ i ≥ (v.length : Int) then (.exc .index, v)
      else setKeys g l (v.set i.toNat kx.2)
    | .exc e => (.exc e, v)
    | .abort => (.abort, v)
    | .ub => (.ub, v)
    | .stale => (.stale, v)

/-- scenegraph.py:584-586: the loop and the returned vector. -/
def setDict (g : Graph P) (l : List (String × K)) (v : List K) : Res (List K) × List K :=
  let r := setKeys g l v
  (r.1.bind (fun _ => .ok r.2), r.2)

/-- scenegraph.py:573-590 `config_vector` without `vector`: `DVec.ensure` accepts every sequence
and makes a vector of that many zeros of an integer (mat.py:56-81). -/
def configVector0 [Zero K] (g : Graph P) : Cfg K → Res (List K)
  | .dict l => (configCount g).bind (fun n => (setDict g l (List.replicate n 0)).1)
  | .seq l => .ok l
  | .size n => .ok (List.replicate n 0)

/-- scenegraph.py:573-590 `config_vector` with `vector`: the result, and the elements of the vector
passed after the call.  `copy_from` (mat.py:83-91) compares the lengths first. -/
def configVector (g : Graph P) (c : Cfg K) (v : List K) : Res (List K) × List K :=
  match c with
  | .dict l =>
    match configCount g with
    | .ok n => if v.length ≠ n then (.exc .index, v) else setDict g l v
    | .exc e => (.exc e, v)
    | .abort => (.abort, v)
    | .ub => (.ub, v)
    | .stale => (.stale, v)
  | .seq l => if v.length ≠ l.length then (.exc .index, v) else (.ok l, l)
  | .size _ => (.exc .type, v)

/-- scenegraph.py:592-594 `copy_config`. -/
def copyConfig [Zero K] (g : Graph P) (c : Cfg K) : Res (List K) :=
  (configCount g).bind (fun n => (configVector g c (List.replicate n 0)).1)

/-- scenegraph.py:599-600: the loop of `config_dict`; the first argument is the number of
iterations left.  Assigning to a key that is present replaces its item. -/
def dictLoop (g : Graph P) (v : List K) : Nat → Nat → List (String × K) → Res (List (String × K))
  | 0, _, d => .ok d
  | m + 1, i, d =>
    (configName g i).bind (fun name =>
      match v[i]? with
      | none => .exc .index
      | some x =>
        dictLoop g v m (i + 1)
          (if d.any (fun p => p.1 = name) then d.map (fun p => if p.1 = name then (name, x) else p)
           else d ++ [(name, x)]))

/-- scenegraph.py:596-601 `config_dict`. -/
def configDict (g : Graph P) (v : List K) : Res (List (String × K)) :=
  (configCount g).bind (fun n => dictLoop g v n 0 [])

end

/-! ## Forward kinematics (kinematics.py:51-101) -/

/-- An object of the class `SceneFK`: the columns of the memory allocated by `aa_rx_fk_malloc`
(`none` while never written) and the vector `_q`. -/
structure Fk where
  cols : List (Option Qutr)
  q : List ℝ

/-- kinematics.py:55-58 `__init__`; sg_api.cpp:872-880 `aa_rx_fk_malloc`. -/
noncomputable def fkNew (g : Graph Body) : Res Fk :=
  (configCount g).bind (fun n =>
    .ok ⟨List.replicate (frameCount g) none, List.replicate n 0⟩)

/-- kinematics.py:88; sg_api.cpp:956-976 `aa_rx_fk_all` with the vector `q` (of increment one): the
size check ends the process, and more frames than columns write past the memory. -/
noncomputable def fkAll (g : Graph Body) (fk : Fk) : Res Unit × Fk :=
  match configCount g with
  | .ok n =>
    if n ≠ fk.q.length then (.abort, fk)
    else if fk.cols.length < frameCount g then (.ub, fk)
    else
      match Sg.fkAll g (fun i => fk.q.getD i 0) 1 with
      | none => (.ub, fk)
      | some A => (.ok (), ⟨A.map some ++ fk.cols.drop A.length, fk.q⟩)
  | .exc e => (.exc e, fk)
  | .abort => (.abort, fk)
  | .ub => (.ub, fk)
  | .stale => (.stale, fk)

/-- kinematics.py:85-89: assigning to `config`.  The second component is the object afterwards. -/
noncomputable def fkSetConfig (g : Graph Body) (fk : Fk) (c : Cfg ℝ) : Res Unit × Fk :=
  let r := configVector g c fk.q
  match r.1 with
  | .ok _ => fkAll g ⟨fk.cols, r.2⟩
  | .exc e => (.exc e, ⟨fk.cols, r.2⟩)
  | .abort => (.abort, ⟨fk.cols, r.2⟩)
  | .ub => (.ub, ⟨fk.cols, r.2⟩)
  | .stale => (.stale, ⟨fk.cols, r.2⟩)

/-- Reading column `i`: past the memory or never written is undefined. -/
def fkCol (fk : Fk) (i : Int) : Res Qutr :=
  if i < 0 then .ub else Res.ofOption (fk.cols[i.toNat]?).join

/-- sg_api.cpp:896-905 `aa_rx_fk_get_abs_qutr`: an id below zero (the root) or above the number of
frames ends the process. -/
def fkGetAbs (g : Graph Body) (fk : Fk) (i : Int) : Res Qutr :=
  if i < 0 ∨ i > (frameCount g : Int) then .abort else fkCol fk i

/-- sg_api.cpp:908-920 `aa_rx_fk_get_rel_qutr`. -/
noncomputable def fkGetRel (fk : Fk) (parent child : Int) : Res Qutr :=
  (if parent = frameRoot then .ok qutrident else fkCol fk parent).bind (fun a =>
    (if child = frameRoot then .ok qutrident else fkCol fk child).bind (fun b =>
      .ok (qutrCmul a b)))

/-- kinematics.py:63-78 `__getitem__` with one key. -/
def fkItem (g : Graph Body) (fk : Fk) (k : Key) : Res Qutr :=
  (ensureFrameId g k).bind (fkGetAbs g fk)

/-- kinematics.py:70-74 `__getitem__` with a pair of keys. -/
noncomputable def fkItem2 (g : Graph Body) (fk : Fk) (p c : Key) : Res Qutr :=
  (ensureFrameId g p).bind (fun i => (ensureFrameId g c).bind (fkGetRel fk i))

end Verif.PySg
