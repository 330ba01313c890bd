import Verif.Model.Region

/-! Memory pools (src/mem.c:356-390), on top of the region model.
Memory is a map from addresses to words. The link of a free block is the word
stored at the block's first address. Simplification: a pointer stored at `p`
occupies the single cell `p` (a client byte write inside `p .. p+size` other than
the first cell cannot change the link of another block, which is what matters). -/

namespace Verif.Pool
open Verif.Region

/-- `struct aa_mem_pool` (include/amino/mem.h) plus the memory it lives in.
`top = 0` is NULL. -/
structure Pool where
  size : Nat
  top : Nat
  mem : Nat → Nat
  reg : Reg

/-- A store to one cell. -/
def store (m : Nat → Nat) (p v : Nat) : Nat → Nat := fun x => if x = p then v else m x

/-- `aa_mem_pool_init` (src/mem.c:360-364). -/
def init (size count : Nat) (mem : Nat → Nat) (a : Nat) : Out Pool := do
  let sz := max size 16
  let r ← Region.init (sz * count) a
  pure { size := sz, top := 0, mem := mem, reg := r }

/-- `aa_mem_pool_alloc` (src/mem.c:370-380). -/
def alloc (P : Pool) (a : Nat) : Out (Pool × Nat) :=
  if P.top ≠ 0 then
    .ok ({ P with top := P.mem P.top }, P.top)
  else do
    let (r, p) ← Region.alloc P.reg P.size a
    pure ({ P with reg := r }, p)

/-- `aa_mem_pool_free` (src/mem.c:382-385). -/
def free (P : Pool) (p : Nat) : Pool :=
  { P with mem := store P.mem p P.top, top := p }

/-- `aa_mem_pool_release` (src/mem.c:387-390). -/
def release (P : Pool) (a : Nat) : Out Pool := do
  let r ← Region.release P.reg a
  pure { P with top := 0, reg := r }

/-- A client: it allocates, frees its `k`-th outstanding block, writes `v` at
offset `off` of its `k`-th outstanding block, or releases the pool. -/
inductive Op where
  | alloc (a : Nat)
  | free (k : Nat)
  | write (k off v : Nat)
  | release (a : Nat)

/-- The pool with the client's outstanding blocks, newest first. -/
structure St where
  pool : Pool
  out : List Nat

def step (s : St) : Op → Out St
  | .alloc a => do
    let (P, p) ← alloc s.pool a
    pure ⟨P, p :: s.out⟩
  | .free k =>
    match s.out[k]? with
    | none => .ok s
    | some p => .ok ⟨free s.pool p, s.out.eraseIdx k⟩
  | .write k off v =>
    match s.out[k]? with
    | none => .ok s
    | some p => if off < s.pool.size then .ok ⟨{ s.pool with mem := store s.pool.mem (p + off) v }, s.out⟩
                else .ok s
  | .release a => do
    let P ← release s.pool a
    pure ⟨P, []⟩

def run (s : St) : List Op → Out St
  | [] => .ok s
  | op :: ops => do
    let s ← step s op
    run s ops

def start (size count : Nat) (mem : Nat → Nat) (a : Nat) (ops : List Op) : Out St := do
  let P ← init size count mem a
  run ⟨P, []⟩ ops

end Verif.Pool
