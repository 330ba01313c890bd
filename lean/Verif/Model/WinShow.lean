import Mathlib.Logic.Function.Basic

/-!
# What a window shows (C132)

src/rx/sdl_win.c: a window has a display function with a context, and a configuration.  The thread of
`aa_rx_win_run` draws frames with the mutex of the window held, other threads set the scene graph, the configuration
and the display function.  Memory is a map from numbers of blocks to contents; access to a block that was freed, or
past its end, has no result.

Calls that need the mutex while a frame holds it wait; the lists of operations below have the calls in the order in
which they proceed.  Left out: `aa_rx_win_set_sg_sub` with `workspace_control` (351-436), display functions of the
user, the camera (C108), and calls of these functions from inside a display function (the mutex is recursive).
-/

namespace Verif.WinShow

/-- a scene graph: its name and `aa_rx_sg_config_count`. -/
structure Sg where
  id : Nat
  n : Nat
  deriving DecidableEq

/-- the sequence shown: one of the user, or the one made by `aa_rx_win_set_display_plan`. -/
inductive Sq
  | user (s : Nat)
  | own (k : Nat)

/-- blocks: `struct default_display_cx` (src/rx/sdl_win.c:338-343), `struct mp_seq_display_cx` (574-577), a sequence
made of a plan, an array. -/
inductive Blk (α : Type)
  | cx (g : Sg)
  | mp (r : Sq)
  | plan (g : Sg) (l : List α)
  | arr (l : List α)

/-- `display` -/
inductive Fn
  | null
  | deflt
  | seq

/-- `destroy_cx`; both `free` and `destroy_default` (345-348) are `free`. -/
inductive Del
  | null
  | free
  | plan

/-- where the thread of `aa_rx_win_run` is. -/
inductive Phase
  | off
  /-- in `aa_sdl_display_loop`, outside of `win_display` -/
  | loop
  /-- in `win_display`, with what it read: 548 -/
  | frame (upd : Bool) (f : Fn) (cx : Option Nat)
  /-- `aa_sdl_display_loop` returned: 894 -/
  | left
  /-- after the loop: 903 -/
  | ending

/-- `struct aa_rx_win`, src/rx/sdl_win.c:92-113, and the memory. -/
structure St (α : Type) where
  display : Fn
  cx : Option Nat
  del : Del
  q : Option Nat
  nq : Nat
  updated : Bool
  stop : Bool
  stopOnQuit : Bool
  running : Bool
  heap : Nat → Option (Blk α)
  next : Nat
  phase : Phase

/-- `aa_rx_win_create`, src/rx/sdl_win.c:198-219. -/
def create {α : Type} : St α :=
  ⟨.deflt, none, .null, none, 0, false, false, true, false, fun _ => none, 0, .off⟩

variable {α : Type}

def free (s : St α) (k : Nat) : Option (St α) :=
  match s.heap k with
  | some _ => some { s with heap := Function.update s.heap k none }
  | none => none

def new (s : St α) (b : Blk α) : St α :=
  { s with heap := Function.update s.heap s.next (some b), next := s.next + 1 }

/-- `destroy_plan_cx`, src/rx/sdl_win.c:788-793. -/
def destroyPlan (s : St α) (k : Nat) : Option (St α) :=
  match s.heap k with
  | some (.mp (.own j)) => (free s j).bind fun s => free s k
  | _ => none

/-- the call of `destroy_cx`, src/rx/sdl_win.c:566-568. -/
def destroyCx (s : St α) : Option (St α) :=
  match s.del, s.cx with
  | .null, _ => some s
  | .free, some k => free s k
  | .free, none => some s
  | .plan, some k => destroyPlan s k
  | .plan, none => none

/-- `aa_rx_win_set_display`, src/rx/sdl_win.c:560-572: not under the mutex. -/
def setDisplay (s : St α) (f : Fn) (cx : Option Nat) (d : Del) : Option (St α) :=
  (destroyCx s).map fun s => { s with display := f, cx := cx, del := d }

/-- `set_sg`, src/rx/sdl_win.c:461-487. -/
def setSg [Zero α] (s : St α) (g : Sg) : Option (St α) :=
  let k := s.next
  let s := new s (.cx g)
  let s := { new s (.arr (List.replicate g.n 0)) with q := some s.next, nq := g.n }
  (setDisplay s .deflt (some k) .free).map fun s => { s with updated := true }

/-- `aa_checked_free` of the configuration. -/
def freeQ (s : St α) : Option (St α) :=
  match s.q with
  | some k => free s k
  | none => some s

/-- `aa_rx_win_set_config`, `aa_rx_win_set_bconfig`, src/rx/sdl_win.c:502-526. -/
def setConfig (s : St α) (l : List α) : Option (St α) :=
  (freeQ s).map fun s => { new s (.arr l) with q := some s.next, nq := l.length }

/-- reading `n` values of the configuration. -/
def readQ (s : St α) (n : Nat) : Option (List α) :=
  if n = 0 then some []
  else match s.q.bind s.heap with
    | some (.arr l) => if n ≤ l.length then some (l.take n) else none
    | _ => none

/-- `aa_rx_win_set_display_seq`, src/rx/sdl_win.c:780-786. -/
def setSeq (s : St α) (r : Nat) : Option (St α) :=
  setDisplay (new s (.mp (.user r))) .seq (some s.next) .free

/-- `aa_rx_win_set_display_plan`, src/rx/sdl_win.c:795-813. -/
def setPlan (s : St α) (g : Sg) (l : List α) : Option (St α) :=
  let j := s.next
  let s := new s (.plan g l)
  setDisplay (new s (.mp (.own j))) .seq (some s.next) .plan

/-- What can be seen: a frame, or the result of a call. -/
inductive Obs (α : Type)
  | blank
  | graph (g : Sg) (q : List α)
  | seq (r : Nat)
  | plan (g : Sg) (l : List α)
  | config (l : List α)
  | running (b : Bool)

/-- The display functions: `default_display` (src/rx/sdl_win.c:439-459) with `aa_rx_win_display_sg_config` (316-334),
`mp_seq_display` (C106). -/
def draw (s : St α) (upd : Bool) : Fn → Option Nat → Option (Obs α)
  | .null, _ => none
  | .deflt, none => some .blank
  | .deflt, some k =>
    match s.heap k with
    | some (.cx g) => if upd || s.updated then (readQ s g.n).map (.graph g) else some .blank
    | _ => none
  | .seq, none => none
  | .seq, some k =>
    match s.heap k with
    | some (.mp (.user r)) => some (.seq r)
    | some (.mp (.own j)) =>
      match s.heap j with
      | some (.plan g l) => some (.plan g l)
      | _ => none
    | _ => none

inductive Op (α : Type)
  | setSg (g : Sg)
  | setConfig (l : List α)
  | getConfig (n : Nat)
  | setSeq (r : Nat)
  | setPlan (g : Sg) (l : List α)
  | stop
  | stopOnQuit (b : Bool)
  | isRunning
  | run
  /-- the next step of the display thread: `upd` is the flag of the display parameters, `quit` the user closing the
  window -/
  | tick (upd quit : Bool)

/-- A step of the display thread, src/rx/sdl_win.c:539-557, 891-915. -/
def tick (s : St α) (upd quit : Bool) : Option (St α × Option (Obs α)) :=
  match s.phase with
  | .off => some (s, none)
  | .loop => some ({ s with phase := .frame upd s.display s.cx }, none)
  | .frame upd f cx =>
    (draw s upd f cx).map fun o => ({ s with phase := if s.stop || quit then .left else .loop }, some o)
  | .left => some ({ s with phase := if s.stop || s.stopOnQuit then .ending else .loop }, none)
  | .ending => some ({ s with phase := .off, running := false, stop := true }, none)

def step [Zero α] (s : St α) : Op α → Option (St α × Option (Obs α))
  | .setSg g => (setSg s g).map fun s => (s, none)
  | .setConfig l => (setConfig s l).map fun s => (s, none)
  -- 528-537
  | .getConfig n => (readQ s (min n s.nq)).map fun l => (s, some (.config l))
  | .setSeq r => (setSeq s r).map fun s => (s, none)
  | .setPlan g l => (setPlan s g l).map fun s => (s, none)
  -- 917-924
  | .stop => some ({ s with stop := true }, none)
  -- 935-942
  | .stopOnQuit b => some ({ s with stopOnQuit := b }, none)
  -- 926-933
  | .isRunning => some (s, some (.running !s.stop))
  -- 843-889: with a window
  | .run =>
    match s.phase with
    | .off => some ({ s with phase := .loop, running := true }, none)
    | _ => some (s, none)
  | .tick upd quit => tick s upd quit

/-- a run and what is seen in it. -/
def exec [Zero α] : St α → List (Op α) → Option (St α × List (Obs α))
  | s, [] => some (s, [])
  | s, o :: os => (step s o).bind fun r => (exec r.1 os).map fun t => (t.1, r.2.toList ++ t.2)

/-- `aa_rx_win_destroy`, src/rx/sdl_win.c:255-273: the blocks left. -/
def destroy (s : St α) : Option (Nat → Option (Blk α)) := (setDisplay s .null none .null).map (·.heap)

end Verif.WinShow
