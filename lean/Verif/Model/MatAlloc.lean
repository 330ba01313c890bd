import Mathlib.Data.Real.Basic

/-!
# Allocating and duplicating vectors and matrices (src/mat.c:185-278)

Addresses are in bytes. `size_t` has 64 bits and wraps, `int` has 32 bits; a descriptor of a vector has 24
bytes and one of a matrix 32 (include/amino/mat.h:63-77 on a machine with pointers of 8 bytes). `got` is what
`malloc` or `aa_mem_region_alloc` answers: nothing, or a block of the size asked for. Memory gives the double
that starts at an address.
-/

namespace Verif.MatAlloc

/-- A call returns or is undefined. -/
inductive Out (α : Type) where
  | ok (a : α)
  | ub

/-- A block of the allocator. -/
structure Blk where
  addr : Nat
  size : Nat

/-- include/amino/mat.h:63-67 `struct aa_dvec`. -/
structure Vec where
  len : Nat
  data : Nat
  inc : Nat

/-- include/amino/mat.h:72-77 `struct aa_dmat`. -/
structure Mtx where
  rows : Nat
  cols : Nat
  data : Nat
  ld : Nat

/-- conversion to `size_t`. -/
def word (n : Nat) : Nat := n % 2 ^ 64

/-- src/mat.c:190 `pad`. -/
def pad (desc : Nat) : Nat := 8 - desc % 8

/-- src/mat.c:191 `size`, for `n` elements. -/
def blockSize (desc n : Nat) : Nat := word (desc + pad desc + word (n * 8))

/-- src/mat.c:195-198: the block, whose first `desc` bytes are written. -/
def block (desc n : Nat) (got : Option Nat) : Out Blk :=
  match got with
  | none => .ub
  | some a => if blockSize desc n < desc then .ub else .ok ⟨a, blockSize desc n⟩

/-- src/mat.c:185-213 `aa_dvec_malloc`, `aa_dvec_alloc`. -/
def vecAlloc (len : Nat) (got : Option Nat) : Out (Blk × Vec) :=
  match block 24 len got with
  | .ub => .ub
  | .ok b => .ok (b, ⟨len, b.addr + (24 + pad 24), 1⟩)

/-- src/mat.c:248-278 `aa_dmat_malloc`, `aa_dmat_alloc`. -/
def matAlloc (rows cols : Nat) (got : Option Nat) : Out (Blk × Mtx) :=
  match block 32 (word (rows * cols)) got with
  | .ub => .ub
  | .ok b => .ok (b, ⟨rows, cols, b.addr + (32 + pad 32), rows⟩)

/-- conversion to `int`. -/
def cInt (n : Nat) : Int := if n % 2 ^ 32 < 2 ^ 31 then (n % 2 ^ 32 : Nat) else (n % 2 ^ 32 : Nat) - 2 ^ 32

abbrev Mem := Int → ℝ

def store (m : Mem) (a : Int) (v : ℝ) : Mem := fun b => if b = a then v else m b

def loop : Nat → (Nat → Mem → Mem) → Mem → Mem
  | 0, _, m => m
  | n + 1, f, m => f n (loop n f m)

/-- Where BLAS finds element `k` of `n`, in doubles: with a negative increment it starts at the end. -/
def off (n inc : Int) (k : Nat) : Int := if 0 ≤ inc then k * inc else (n - 1 - k) * -inc

/-- `cblas_dcopy`. -/
def dcopy (n : Int) (x incx y incy : Int) (m : Mem) : Mem :=
  loop n.toNat (fun k m => store m (y + 8 * off n incy k) (m (x + 8 * off n incx k))) m

/-- `dlacpy_` with "G". -/
def dlacpy (rows cols : Int) (a lda b ldb : Int) (m : Mem) : Mem :=
  loop cols.toNat (fun j => loop rows.toNat fun i m =>
    store m (b + 8 * (i + j * ldb)) (m (a + 8 * (i + j * lda)))) m

/-- src/mat.c:215-229 `aa_dvec_dup`, `aa_dvec_mdup`, with `aa_dvec_copy` (src/mat.c:342-347); it is undefined
to write past the block. -/
def vecDup (src : Vec) (got : Option Nat) (m : Mem) : Out (Blk × Vec × Mem) :=
  match vecAlloc src.len got with
  | .ub => .ub
  | .ok (b, v) =>
    if (b.addr + b.size : Nat) < (v.data + 8 * (cInt src.len).toNat : Nat) then .ub
    else .ok (b, v, dcopy (cInt src.len) src.data (cInt src.inc) v.data (cInt v.inc) m)

/-- src/mat.c:231-246 `aa_dmat_dup`, `aa_dmat_mdup`, with `aa_dmat_copy` (src/mat.c:413-437); it is undefined
to write past the block. -/
def matDup (src : Mtx) (got : Option Nat) (m : Mem) : Out (Blk × Mtx × Mem) :=
  match matAlloc src.rows src.cols got with
  | .ub => .ub
  | .ok (b, M) =>
    if b.addr + b.size < M.data + 8 * ((cInt src.rows).toNat * (cInt src.cols).toNat) then .ub
    else .ok (b, M, dlacpy (cInt src.rows) (cInt src.cols) src.data (cInt src.ld) M.data (cInt M.ld) m)

end Verif.MatAlloc
