/-! Region-allocated lists (src/mem.c:397-474). Cons cells live in a map from
cell identity to (data, next); a fresh identity stands for the address returned by
`aa_mem_region_alloc` (distinct live addresses: property C01). -/

namespace Verif.RList

/-- `struct aa_mem_cons` (include/amino/mem.h): data pointer and next pointer. -/
structure Cell (α : Type) where
  data : α
  next : Option Nat

/-- The address stored in `tailp`: either `&list->head` or `&node->next`. -/
inductive Loc where
  | head
  | next (id : Nat)
deriving DecidableEq

/-- `struct aa_mem_rlist` with the heap of cells; `fresh` is the next unused identity. -/
structure RL (α : Type) where
  head : Option Nat
  tailp : Loc
  cells : Nat → Option (Cell α)
  fresh : Nat

def setCell {α} (m : Nat → Option (Cell α)) (i : Nat) (c : Cell α) : Nat → Option (Cell α) :=
  fun j => if j = i then some c else m j

/-- `aa_mem_rlist_alloc` (src/mem.c:397-403). -/
def new {α} : RL α := { head := none, tailp := .head, cells := fun _ => none, fresh := 0 }

/-- `aa_mem_cons_ptr` / `aa_mem_cons_cpy` (src/mem.c:406-419): a new cell. -/
def cons {α} (l : RL α) (d : α) (nxt : Option Nat) : RL α × Nat :=
  ({ l with cells := setCell l.cells l.fresh ⟨d, nxt⟩, fresh := l.fresh + 1 }, l.fresh)

/-- `aa_mem_rlist_push_ptr` (src/mem.c:422-436). -/
def push {α} (l : RL α) (d : α) : RL α :=
  let (l, n) := cons l d l.head
  let l := { l with head := some n }
  if l.tailp = .head then { l with tailp := .next n } else l

/-- The store `*list->tailp = node`; `none` is a dangling `tailp`. -/
def storeTail {α} (l : RL α) (n : Nat) : Option (RL α) :=
  match l.tailp with
  | .head => some { l with head := some n }
  | .next i =>
    match l.cells i with
    | none => none
    | some c => some { l with cells := setCell l.cells i { c with next := some n } }

/-- `aa_mem_rlist_enqueue_ptr` (src/mem.c:439-452). -/
def enqueue {α} (l : RL α) (d : α) : Option (RL α) :=
  let (l, n) := cons l d none
  match storeTail l n with
  | none => none
  | some l => some { l with tailp := .next n }

/-- `aa_mem_rlist_pop` (src/mem.c:455-464). Outer `none`: dangling head. Inner
`none`: NULL returned. -/
def pop {α} (l : RL α) : Option (RL α × Option α) :=
  match l.head with
  | none => some (l, none)
  | some i =>
    match l.cells i with
    | none => none
    | some c =>
      let l := { l with head := c.next }
      let l := if l.head = none then { l with tailp := .head } else l
      some (l, some c.data)

/-- `aa_mem_rlist_map` (src/mem.c:466-474) as the list of elements visited. The
loop is given `fuel` iterations; `none` is a dangling pointer or an unfinished loop. -/
def mapFrom {α} (cells : Nat → Option (Cell α)) : Nat → Option Nat → Option (List α)
  | _, none => some []
  | 0, some _ => none
  | fuel + 1, some i =>
    match cells i with
    | none => none
    | some c => (mapFrom cells fuel c.next).map (c.data :: ·)

inductive Op (α : Type) where
  | push (d : α)
  | enqueue (d : α)
  | pop

/-- One client call; returns the value popped, if any. -/
def step {α} (l : RL α) : Op α → Option (RL α × Option α)
  | .push d => some (push l d, none)
  | .enqueue d => (enqueue l d).map (·, none)
  | .pop => pop l

/-- Run a history, collecting what each call returned. -/
def run {α} (l : RL α) : List (Op α) → Option (RL α × List (Option α))
  | [] => some (l, [])
  | op :: ops =>
    match step l op with
    | none => none
    | some (l, r) => (run l ops).map fun (l, rs) => (l, r :: rs)

end Verif.RList
