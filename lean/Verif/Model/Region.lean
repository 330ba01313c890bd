/-
Model of the region allocator (src/mem.c, include/amino/mem.h).

Addresses and sizes are natural numbers (no pointer overflow).  `malloc` is an
oracle: every operation that may call it takes the address `a` it would return,
and the run is discarded (`Out.oracle`) when `a` is not an address `malloc` may
return, i.e. when the new block would overlap a block that is still allocated.
Freeing something that is not currently allocated is undefined behaviour and is
the distinct outcome `Out.ub`.
-/
namespace Verif.Region

/-- Outcome of running C code: a value, undefined behaviour, or an impossible
answer of the `malloc` oracle. -/
inductive Out (α : Type) where
  | ok (a : α)
  | ub
  | oracle
deriving Repr, DecidableEq

namespace Out
/-- Sequencing of outcomes. -/
def bind {α β : Type} (x : Out α) (f : α → Out β) : Out β :=
  match x with
  | ok a => f a
  | ub => ub
  | oracle => oracle
instance : Monad Out where
  pure := ok
  bind := bind
end Out

/-- include/amino/mem.h:164 `AA_MEMREG_ALIGN`. -/
def ALIGN : Nat := 16

/-- include/amino/mem.h:170-175: `sizeof(struct aa_mem_region_node)` on an LP64
platform, i.e. the two pointers before the flexible array `d`. -/
def HDR : Nat := 16

/-- include/amino/mem.h:103 `AA_ALIGN2(val,16)` and src/mem.c:84-88
`aa_mem_region_alignptr`, written arithmetically.  `Verif.Region.align_bits`
proves that this is the bit-level formula. -/
def align (p : Nat) : Nat := (p + (ALIGN - 1)) / ALIGN * ALIGN

/-- include/amino/mem.h:170-175 `struct aa_mem_region_node`: `base` is the
address of `d`, `size` is `end - d`.  The `next` link is the list structure. -/
structure Chunk where
  base : Nat
  size : Nat
deriving Repr, DecidableEq

/-- The `end` field. -/
def Chunk.fin (c : Chunk) : Nat := c.base + c.size

/-- include/amino/mem.h:199-217 `struct aa_mem_region`, together with the set of
chunks currently allocated in the C heap (`heap`). `node` is the linked list of
chunks, top first. -/
structure Reg where
  head : Nat
  node : List Chunk
  heap : List Chunk
deriving Repr, DecidableEq

/-- Two heap blocks (with their headers) do not overlap. -/
def Chunk.apart (c d : Chunk) : Prop :=
  c.base + c.size ≤ d.base - HDR ∨ d.base + d.size ≤ c.base - HDR

instance (c d : Chunk) : Decidable (c.apart d) := by unfold Chunk.apart; infer_instance

/-- src/mem.c:65-74 `aa_mem_region_node_alloc(n, _)`: `a` is the value returned by
`malloc(sizeof(node) + n + 16)`; the result is the chunk and the new heap. -/
def nodeAlloc (heap : List Chunk) (n a : Nat) : Out (Chunk × List Chunk) :=
  let c : Chunk := ⟨a + HDR, n + ALIGN⟩
  if 0 < a ∧ ∀ d ∈ heap, c.apart d then .ok (c, c :: heap) else .oracle

/-- src/mem.c:77-82 `aa_mem_region_node_free`: `free(p)`; the caller follows
`p->next` through the list. Freeing an unallocated chunk is undefined. -/
def nodeFree (heap : List Chunk) (c : Chunk) : Out (List Chunk) :=
  if c ∈ heap then .ok (heap.erase c) else .ub

/-- src/mem.c:95-100 `aa_mem_region_init`. -/
def init (size a : Nat) : Out Reg := do
  let (c, heap) ← nodeAlloc [] size a
  return ⟨align c.base, [c], heap⟩

/-- src/mem.c:111-120 `aa_mem_region_destroy` (the loop over the nodes). -/
def freeAll (heap : List Chunk) : List Chunk → Out (List Chunk)
  | [] => .ok heap
  | c :: cs => do
    let heap ← nodeFree heap c
    freeAll heap cs

/-- src/mem.c:111-120 `aa_mem_region_destroy`. -/
def destroy (r : Reg) : Out Reg := do
  let heap ← freeAll r.heap r.node
  return { r with node := [], heap := heap }

/-- src/mem.c:126-129 `aa_mem_region_freesize`; a region without chunk is a null
dereference. -/
def freesize (r : Reg) : Out Nat :=
  match r.node with
  | [] => .ub
  | c :: _ => .ok (if r.head ≥ c.fin then 0 else c.fin - r.head)

/-- src/mem.c:131-133 `aa_mem_region_pop_in_node`. -/
def inNode (ptr : Nat) (c : Chunk) : Bool := decide (c.base ≤ ptr ∧ ptr < c.fin)

/-- src/mem.c:145-149, the loop freeing chunks that do not contain `ptr`;
returns the accumulated size, the remaining chunks and the heap. -/
def popLoop (heap : List Chunk) (ptr : Nat) (n : Nat) :
    List Chunk → Out (Nat × List Chunk × List Chunk)
  | [] => .ok (n, [], heap)
  | c :: cs =>
    if inNode ptr c then .ok (n, c :: cs, heap)
    else do
      let heap ← nodeFree heap c
      popLoop heap ptr (n + c.size) cs

/-- src/mem.c:136-166 `aa_mem_region_pop`. The assertions at 150-159 hold
whenever the loop stops on a chunk containing `ptr` and are not repeated. -/
def pop (r : Reg) (ptr a : Nat) : Out Reg :=
  match r.node with
  | [] => .ub
  | c :: cs =>
    if inNode ptr c then .ok { r with head := align ptr }
    else do
      let heap ← nodeFree r.heap c
      let (n, p, heap) ← popLoop heap ptr c.size cs
      match p with
      | [] =>
        let (t, heap) ← nodeAlloc heap n a
        return ⟨align t.base, [t], heap⟩
      | q :: qs =>
        let popsize := q.fin - ptr
        if align q.base = ptr then
          let heap ← nodeFree heap q
          let (t, heap) ← nodeAlloc heap (n + popsize) a
          return ⟨align t.base, t :: qs, heap⟩
        else
          let (t, heap) ← nodeAlloc heap (n + popsize) a
          return ⟨align t.base, t :: q :: qs, heap⟩

/-- src/mem.c:168-180 `aa_mem_region_grow`. C evaluates the arguments before the
call, so an unused chunk is freed before the new one is allocated. -/
def grow (r : Reg) (size a : Nat) : Out Reg :=
  match r.node with
  | [] => .ub
  | c :: cs =>
    let nsize := max (2 * c.size) (size + ALIGN)
    if align c.base = r.head then do
      let heap ← nodeFree r.heap c
      let (t, heap) ← nodeAlloc heap nsize a
      return ⟨align t.base, t :: cs, heap⟩
    else do
      let (t, heap) ← nodeAlloc r.heap nsize a
      return ⟨align t.base, t :: c :: cs, heap⟩

/-- src/mem.c:182-189 `aa_mem_region_tmpalloc`. -/
def tmpalloc (r : Reg) (size a : Nat) : Out (Reg × Nat) :=
  match r.node with
  | [] => .ub
  | c :: _ =>
    if r.head + size > c.fin then do
      let r ← grow r size a
      return (r, r.head)
    else .ok (r, r.head)

/-- src/mem.c:204-215 `aa_mem_region_alloc`. -/
def alloc (r : Reg) (size a : Nat) : Out (Reg × Nat) :=
  match r.node with
  | [] => .ub
  | c :: _ =>
    if r.head + size > c.fin then do
      let r ← grow r size a
      return ({ r with head := align (r.head + size) }, r.head)
    else .ok ({ r with head := align (r.head + size) }, r.head)

/-- src/mem.c:235-240 `aa_mem_region_chunk_count`. -/
def chunkCount (r : Reg) : Nat := r.node.length

/-- src/mem.c:252, total size of a chain. -/
def total : List Chunk → Nat
  | [] => 0
  | c :: cs => c.size + total cs

/-- src/mem.c:247-256 `aa_mem_region_release`. Note that the new head is not
aligned, unlike every other operation. -/
def release (r : Reg) (a : Nat) : Out Reg :=
  match r.node with
  | [] => .ub
  | [c] => .ok { r with head := c.base }
  | c :: d :: cs => do
    let n := total (c :: d :: cs)
    let heap ← freeAll r.heap (c :: d :: cs)
    let (t, heap) ← nodeAlloc heap n a
    return ⟨t.base, [t], heap⟩

/-! ### Histories

A history is a list of operations issued by a client.  The client keeps a stack
of what it obtained: blocks `(address, size)` and saved heads ("marks", from
`aa_mem_region_ptr`, or zero-size blocks). -/

/-- What the client remembers: a block of `size` bytes, or a mark (`size = 0`). -/
structure Blk where
  addr : Nat
  size : Nat
deriving Repr, DecidableEq

/-- A mark strictly inside the top chunk: not its first aligned byte, and not at
or past its end. -/
def interior (r : Reg) (p : Nat) : Bool :=
  match r.node with
  | [] => false
  | c :: _ => decide (align c.base < p ∧ p < c.fin)

/-- The client remembers nonempty blocks and interior marks. (What happens when
it pops any other saved pointer is the subject of the witnesses of C03.) -/
def keep (r : Reg) (b : Blk) (stk : List Blk) : List Blk :=
  if 0 < b.size ∨ interior r b.addr then b :: stk else stk

/-- Client operations; `a` is the answer of the `malloc` oracle.  `pop k` pops the
`k`-th most recent entry of the client's stack. -/
inductive Op where
  | alloc (size a : Nat)
  | tmpalloc (size a : Nat)
  | mark
  | pop (k a : Nat)
  | release (a : Nat)
deriving Repr, DecidableEq

/-- The oracle answer carried by an operation. -/
def Op.addr : Op → Nat
  | .alloc _ a | .tmpalloc _ a | .pop _ a | .release a => a
  | .mark => 0

/-- Is the operation a release? -/
def Op.isRelease : Op → Bool
  | .release _ => true
  | _ => false

/-- Region plus client stack, most recent entry first. -/
structure St where
  reg : Reg
  stk : List Blk
deriving Repr, DecidableEq

/-- One client step.  A `pop` with an index outside of the stack is a no-op (the
client has nothing to pop). -/
def step (s : St) : Op → Out St
  | .alloc size a => do
    let (r, p) ← alloc s.reg size a
    return ⟨r, keep r ⟨p, size⟩ s.stk⟩
  | .tmpalloc size a => do
    let (r, _) ← tmpalloc s.reg size a
    return ⟨r, s.stk⟩
  | .mark => .ok ⟨s.reg, keep s.reg ⟨s.reg.head, 0⟩ s.stk⟩
  | .pop k a =>
    match s.stk.drop k with
    | [] => .ok s
    | b :: bs => do
      let r ← pop s.reg b.addr a
      return ⟨r, bs⟩
  | .release a => do
    let r ← release s.reg a
    return ⟨r, []⟩

/-- A whole history. -/
def run (s : St) : List Op → Out St
  | [] => .ok s
  | op :: ops => do
    let s ← step s op
    run s ops

/-- A history from `aa_mem_region_init(size)`. -/
def start (size a : Nat) (ops : List Op) : Out St := do
  let r ← init size a
  run ⟨r, []⟩ ops

end Verif.Region

namespace Verif.Region

/-! ### Temporary reallocation with memory contents -/

/-- Is the byte range `[p, p+n)` inside a currently allocated chunk? -/
def readable (heap : List Chunk) (p n : Nat) : Bool :=
  heap.any fun c => decide (c.base ≤ p ∧ p + n ≤ c.fin)

/-- `memcpy(dst, src, n)` on a byte memory: undefined when a range is not inside
an allocated chunk or the ranges overlap. -/
def memcpy (heap : List Chunk) (m : Nat → Nat) (dst src n : Nat) : Out (Nat → Nat) :=
  if readable heap dst n ∧ readable heap src n ∧ (dst + n ≤ src ∨ src + n ≤ dst) then
    .ok fun x => if dst ≤ x ∧ x < dst + n then m (src + (x - dst)) else m x
  else .ub

/-- src/mem.c:191-202 `aa_mem_region_tmprealloc`.  `old_size` is an unsigned
64-bit subtraction, so it wraps when the aligned head is past the end. -/
def tmprealloc (r : Reg) (m : Nat → Nat) (size a : Nat) : Out (Reg × (Nat → Nat) × Nat) :=
  match r.node with
  | [] => .ub
  | c :: _ => do
    let oldPtr := r.head
    let oldSize := if r.head ≤ c.fin then c.fin - r.head else 2 ^ 64 - (r.head - c.fin)
    let (r, newPtr) ← tmpalloc r size a
    if oldPtr ≠ newPtr then
      let m ← memcpy r.heap m newPtr oldPtr oldSize
      return (r, m, newPtr)
    else
      return (r, m, newPtr)

end Verif.Region
