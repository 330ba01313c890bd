import Mathlib.Data.Real.Basic

/-!
# Model: arrays in the parameters of inverse kinematics (src/rx/ik_opt.c, src/rx/scene_ik.c)

The heap holds blocks of numbers: those that the caller has allocated, with a name chosen by the
caller, and those that the library has allocated.  Allocation does not fail.  `none` is undefined
behaviour: freeing what is not allocated, or reading or writing outside of allocated memory.
-/

namespace Verif.IkParm

/-- A block of the heap. -/
inductive Blk
  | user (k : Nat)
  | lib (i : Nat)
  deriving DecidableEq

/-- A pointer to the start of a block, or NULL. -/
abbrev Ptr := Option Blk

/-- include/amino/mem.h:57-64 `enum aa_mem_refop`. -/
inductive Refop
  | copy
  | borrow
  | steal
  deriving DecidableEq

/-- The three arrays of include/amino/rx/scene_ik_internal.h:137-147: `dq_dt`, `q_ref`, `q_all_seed`. -/
inductive Sl
  | gain
  | config
  | seed
  deriving DecidableEq

/-- One array: the pointer that is used, the pointer that is freed, the length. -/
structure Slot where
  ref : Ptr
  data : Ptr
  n : Nat

structure World where
  heap : Blk → Option (List ℝ)
  next : Nat
  parms : Nat → Option (Sl → Slot)

def setHeap (w : World) (b : Blk) (v : Option (List ℝ)) : World :=
  { w with heap := fun c => if c = b then v else w.heap c }

def setParm (w : World) (p : Nat) (v : Option (Sl → Slot)) : World :=
  { w with parms := fun c => if c = p then v else w.parms c }

/-- `malloc` by the library, filled with `l`. -/
def libAlloc (w : World) (l : List ℝ) : Blk × World :=
  (.lib w.next, { setHeap w (.lib w.next) (some l) with next := w.next + 1 })

/-- `free` of a pointer that is not NULL, and include/amino/mem.h:106-109 `aa_checked_free`. -/
def free (w : World) : Ptr → Option World
  | none => some w
  | some b => (w.heap b).map fun _ => setHeap w b none

/-- reading `n` elements. -/
def rd (w : World) (p : Ptr) (n : Nat) : Option (List ℝ) :=
  p.bind fun b => (w.heap b).bind fun l => if n ≤ l.length then some (l.take n) else none

/-- include/amino/mem.h:544-558 `AA_MEM_DUPOP`, with 531-542 `AA_MEM_DUP`. -/
def dupop (w : World) (op : Refop) (src : Ptr) (n : Nat) : Option (Slot × World) :=
  match op with
  | .copy => (rd w src n).map fun l =>
    let r := libAlloc w l
    (⟨some r.1, some r.1, n⟩, r.2)
  | .steal => some (⟨src, src, n⟩, w)
  | .borrow => some (⟨src, none, n⟩, w)

/-- src/rx/ik_opt.c:57-89 `aa_rx_ik_parm_create`: the arrays. -/
def create (w : World) (p : Nat) : World := setParm w p (some fun _ => ⟨none, none, 0⟩)

/-- src/rx/ik_opt.c:125-154 `aa_rx_ik_parm_take_config`, `aa_rx_ik_parm_take_gain_config`,
`aa_rx_ik_parm_take_seed`. -/
def take (w : World) (p : Nat) (x : Sl) (q : Ptr) (n : Nat) (op : Refop) : Option World :=
  (w.parms p).bind fun a => (free w (a x).data).bind fun w =>
    (dupop w op q n).map fun r => setParm r.2 p (some fun y => if y = x then r.1 else a y)

/-- src/rx/ik_opt.c:157-181 `aa_rx_ik_parm_center_configs`; `q` and `g` are the values computed for
`q_ref` and `q_gain`. -/
def centerConfigs (w : World) (p : Nat) (q g : List ℝ) : Option World :=
  let r := libAlloc w q
  let s := libAlloc r.2 g
  (take s.2 p .config (some r.1) q.length .steal).bind fun w => take w p .gain (some s.1) g.length .steal

/-- src/rx/ik_opt.c:183-196 `aa_rx_ik_parm_center_seed`; `q` are the values computed for `q_a`. -/
def centerSeed (w : World) (p : Nat) (q : List ℝ) : Option World :=
  let r := libAlloc w q
  take r.2 p .seed (some r.1) q.length .steal

/-- src/rx/ik_opt.c:91-97 `aa_rx_ik_parm_destroy`. -/
def destroy (w : World) (p : Nat) : Option World :=
  (w.parms p).bind fun a => (free w (a .gain).data).bind fun w =>
    (free w (a .config).data).map fun w => setParm w p none

/-- src/rx/scene_ik.c:423-428 in `s_ksol_jpinv` at the configuration `q`: the motion wanted in the null
space, if there is one. -/
def dqnull (w : World) (p : Nat) (q : List ℝ) : Option (Option (List ℝ)) :=
  (w.parms p).bind fun a =>
    if (a .config).ref = none then some none
    else (rd w (a .gain).ref q.length).bind fun g => (rd w (a .config).ref q.length).map fun r =>
      some (List.zipWith (fun k d => -k * d) g (List.zipWith (fun x y => x - y) q r))

/-- What the caller does: with memory of their own (the first three), and calls. -/
inductive Op
  | malloc (k : Nat) (l : List ℝ)
  | write (k : Nat) (l : List ℝ)
  | free (k : Nat)
  | create (p : Nat)
  | take (p : Nat) (x : Sl) (k : Nat) (n : Nat) (op : Refop)
  | centerConfigs (p : Nat) (q g : List ℝ)
  | centerSeed (p : Nat) (q : List ℝ)
  | destroy (p : Nat)
  | solve (p : Nat) (q : List ℝ)

/-- One step; `solve` gives the motion in the null space. -/
def step (w : World) : Op → Option (Option (List ℝ) × World)
  | .malloc k l => some (none, setHeap w (.user k) (some l))
  | .write k l => (w.heap (.user k)).bind fun old =>
    if old.length = l.length then some (none, setHeap w (.user k) (some l)) else none
  | .free k => (IkParm.free w (some (.user k))).map fun w => (none, w)
  | .create p => some (none, IkParm.create w p)
  | .take p x k n op => (IkParm.take w p x (some (.user k)) n op).map fun w => (none, w)
  | .centerConfigs p q g => (IkParm.centerConfigs w p q g).map fun w => (none, w)
  | .centerSeed p q => (IkParm.centerSeed w p q).map fun w => (none, w)
  | .destroy p => (IkParm.destroy w p).map fun w => (none, w)
  | .solve p q => (dqnull w p q).map fun r => (r, w)

def init : World := ⟨fun _ => none, 0, fun _ => none⟩

def run : World → List Op → Option (List (Option (List ℝ)) × World)
  | w, [] => some ([], w)
  | w, o :: os => (step w o).bind fun r => (run r.2 os).map fun r' => (r.1 :: r'.1, r'.2)

/-! ## Contexts -/

/-- include/amino/rx/scene_ik_internal.h:165-181 `struct aa_rx_ik_cx`: start and seed, the frames. -/
structure Cx where
  parm : Nat
  start : List ℝ
  seed : List ℝ
  frames : List Int

/-- src/rx/scene_ik.c:74-104 `aa_rx_ik_cx_create` for a sub-scenegraph with `nAll` variables in the scene,
the end effectors `ees` and centered configuration `center`; `frame` is that of the parameters. -/
def cxCreate (p : Nat) (frame : Int) (nAll : Nat) (ees : List Int) (center : List ℝ) : Cx :=
  ⟨p, List.replicate nAll 0, center, if frame = -2 then ees else [frame]⟩

/-- src/rx/scene_ik.c:187-216: the configuration of the variables of the sub-scenegraph (`ids`) and of all at
the start of `aa_rx_ik_solve`. -/
def solveStart (cx : Cx) (ids : List Nat) : List ℝ × List ℝ :=
  (cx.seed, (ids.zip cx.seed).foldl (fun q (i, v) => q.set i v) cx.start)

end Verif.IkParm
