import Verif.Model.Region

/-!
# Thread-local regions (src/mem.c:280-352)

Every thread has one slot (`pthread_getspecific`) that holds the address of a
`struct aa_mem_region` obtained by `malloc`.  The C heap is shared by all threads: `heap` lists the
blocks that are allocated, i.e. the chunks of all regions and the structures themselves.  A structure
at address `s` has two pointers (16 bytes on an LP64 platform) and is entered in the heap as the chunk
without payload `⟨s + HDR, 0⟩`.  Calls of `malloc` answer with an oracle address and the run is
discarded when the new block would overlap one that is still allocated.  A schedule is any list of
pairs of a thread and an operation; every operation is one step.
-/

namespace Verif.RegionLocal

open Verif.Region

/-- The threads' shared memory.  `once` is `local_region_once` (src/mem.c:284), `slot` the values of
`local_region_key` (src/mem.c:285), `regs` the fields `head` and `node` of the structures in memory,
and `heap` the allocated blocks. -/
structure World where
  once : Bool
  slot : Nat → Option Nat
  regs : Nat → Option (Nat × List Chunk)
  heap : List Chunk

/-- A program that has just started. -/
def World.start : World := ⟨false, fun _ => none, fun _ => none, []⟩

/-- The block of a `struct aa_mem_region` (include/amino/mem.h:199-217) at address `s`. -/
def structBlk (s : Nat) : Chunk := ⟨s + HDR, 0⟩

/-- src/mem.c:296-299 and 301-309 `local_region_make_key` and `local_region_get`: the key is made
once, then `pthread_getspecific`. `pthread_once` does not fail. -/
def localRegionGet (w : World) (t : Nat) : World × Option Nat :=
  ({ w with once := true }, w.slot t)

/-- `pthread_setspecific(local_region_key, v)`; undefined before the key is made. -/
def setSpecific (w : World) (t : Nat) (v : Option Nat) : Out World :=
  if w.once then .ok { w with slot := fun u => if u = t then v else w.slot u } else .ub

/-- src/mem.c:287-294 `local_region_destroy`: the chunks, then the structure. A structure that is not
in memory is undefined behaviour. -/
def localRegionDestroy (w : World) : Option Nat → Out World
  | none => .ok w
  | some s =>
    match w.regs s with
    | none => .ub
    | some hn => do
      let r ← destroy ⟨hn.1, hn.2, w.heap⟩
      let heap ← nodeFree r.heap (structBlk s)
      return { w with heap := heap, regs := fun x => if x = s then none else w.regs x }

/-- `malloc(sizeof(aa_mem_region_t))` answering `s` (src/mem.c:326). -/
def structAlloc (w : World) (s : Nat) : Out World :=
  if 0 < s ∧ ∀ d ∈ w.heap, (structBlk s).apart d then .ok { w with heap := structBlk s :: w.heap }
  else .oracle

/-- src/mem.c:95-100 `aa_mem_region_init` on the structure at `s`, in the shared heap. -/
def regionInit (w : World) (s size a : Nat) : Out World := do
  let (c, heap) ← nodeAlloc w.heap size a
  return { w with heap := heap, regs := fun x => if x = s then some (align c.base, [c]) else w.regs x }

/-- src/mem.c:321-329 `aa_mem_region_local_init`; `s` and `a` are what `malloc` answers for the
structure and for the chunk. -/
def localInit (w : World) (t size s a : Nat) : Out World := do
  let g := localRegionGet w t
  let w ← localRegionDestroy g.1 g.2
  let w ← structAlloc w s
  let w ← regionInit w s size a
  setSpecific w t (some s)

/-- src/mem.c:331-336 `aa_mem_region_local_destroy`. -/
def localDestroy (w : World) (t : Nat) : Out World := do
  let g := localRegionGet w t
  let w ← localRegionDestroy g.1 g.2
  setSpecific w t none

/-- src/mem.c:311-319 `aa_mem_region_local_get`; the default size is `4096*64`. -/
def localGet (w : World) (t s a : Nat) : Out (World × Option Nat) :=
  let g := localRegionGet w t
  match g.2 with
  | some r => .ok (g.1, some r)
  | none => do
    let w ← localInit g.1 t (4096 * 64) s a
    return (w, w.slot t)

/-- Operations on a region through a pointer to it, with what `malloc` answers. -/
inductive ROp where
  | alloc (size a : Nat)
  | tmpalloc (size a : Nat)
  | pop (ptr a : Nat)
  | release (a : Nat)
deriving DecidableEq

/-- The operation on a region and the pointer it returns (`0` for none). -/
def regOp (r : Reg) : ROp → Out (Reg × Nat)
  | .alloc size a => alloc r size a
  | .tmpalloc size a => tmpalloc r size a
  | .pop ptr a => do let r ← pop r ptr a; return (r, 0)
  | .release a => do let r ← release r a; return (r, 0)

/-- src/mem.c:340-354 `aa_mem_region_local_alloc`, `_tmpalloc`, `_pop` and `_release`: the operation
on the region of `aa_mem_region_local_get`. -/
def localOp (w : World) (t s a : Nat) (op : ROp) : Out (World × Nat) := do
  let g ← localGet w t s a
  match g.2 with
  | none => .ub
  | some q =>
    match g.1.regs q with
    | none => .ub
    | some hn => do
      let x ← regOp ⟨hn.1, hn.2, g.1.heap⟩ op
      return ({ g.1 with heap := x.1.heap,
                         regs := fun y => if y = q then some (x.1.head, x.1.node) else g.1.regs y }, x.2)

/-- The end of a thread: when the key was made and the slot is not null, the slot is set to null and
the destructor of the key (src/mem.c:298) is called on its old value. -/
def threadExit (w : World) (t : Nat) : Out World :=
  if w.once then
    localRegionDestroy { w with slot := fun u => if u = t then none else w.slot u } (w.slot t)
  else .ok w

/-- What a thread does; `s` and `a` are what `malloc` answers for a structure and its first chunk. -/
inductive TOp where
  | get (s a : Nat)
  | init (size s a : Nat)
  | destroy
  | op (s a : Nat) (o : ROp)
  | exit
deriving DecidableEq

/-- One operation of thread `t` and the pointer it returns. -/
def step (w : World) (t : Nat) : TOp → Out (World × Nat)
  | .get s a => do let g ← localGet w t s a; return (g.1, g.2.getD 0)
  | .init size s a => do let w ← localInit w t size s a; return (w, 0)
  | .destroy => do let w ← localDestroy w t; return (w, 0)
  | .op s a o => localOp w t s a o
  | .exit => do let w ← threadExit w t; return (w, 0)

/-- A schedule: the operations of all threads in the order they run, and what they return. -/
def run (w : World) : List (Nat × TOp) → Out (World × List (Nat × Nat))
  | [] => .ok (w, [])
  | (t, o) :: l => do
    let x ← step w t o
    let y ← run x.1 l
    return (y.1, (t, x.2) :: y.2)

end Verif.RegionLocal
