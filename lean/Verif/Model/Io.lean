import Verif.Model.Region
import Mathlib.Data.Real.Basic

/-! Text input (src/io.c). Files and strings are lists of characters; end of file is the end of the
list. Line reading runs on the region allocator of `Verif.Region` with its byte memory. The conversion
`strtod` is a parameter: it returns the value and the rest of the string, or `none` when it converts
nothing. -/

namespace Verif.Io

open Verif.Region

/-- `*p = v` on a byte memory: undefined outside of the allocated chunks. -/
def store (r : Reg) (m : Nat → Nat) (p v : Nat) : Out (Nat → Nat) :=
  if readable r.heap p 1 then .ok fun x => if x = p then v else m x else .ub

/-- src/io.c:60-76 `aa_io_getline`: the loop with `n` characters already read. `as k` is the answer of
`malloc` should the request for the `k`-th character need it. The result carries the region, the memory,
the pointer and the unread input. -/
def getLoop (r : Reg) (m : Nat → Nat) (n : Nat) (as : Nat → Nat) :
    List Nat → Out (Reg × (Nat → Nat) × Nat × List Nat)
  | [] => do
    let (r, str) ← alloc r (n + 1) (as n)
    let m ← store r m (str + n) 0
    return (r, m, str, [])
  | i :: rest =>
    if i = 10 then do
      let (r, str) ← alloc r (n + 1) (as n)
      let m ← store r m (str + n) 0
      return (r, m, str, rest)
    else do
      let (r, m, ptr) ← tmprealloc r m (n + 1) (as n)
      let m ← store r m (ptr + n) i
      getLoop r m (n + 1) as rest

/-- `aa_io_getline`. -/
def getline (r : Reg) (m : Nat → Nat) (as : Nat → Nat) (inp : List Nat) :
    Out (Reg × (Nat → Nat) × Nat × List Nat) := getLoop r m 0 as inp

/-- src/io.c:48-57 `aa_read_realloc`: the new size of the buffer and the number of bytes passed to
`read`. -/
def readRealloc (off max : Nat) : Nat × Nat :=
  let n := max - off
  if n < 16 then
    let max := Nat.max (2 * max) 16
    (max, max - off)
  else (max, n)

/-- src/io.c:109-114 `aa_io_skipblank`, with `isblank` of the C locale. -/
def skipblank (s : List Char) : List Char := s.dropWhile fun c => c = ' ' || c = '\t'

/-- A conversion function like `strtod`. -/
abbrev Conv := List Char → Option (ℝ × List Char)

/-- A buffer of `cap` doubles. -/
structure Buf where
  cap : Nat
  val : Nat → ℝ

/-- `X[k] = v`; writing outside is undefined (`none`). -/
noncomputable def Buf.set (b : Buf) (k : Nat) (v : ℝ) : Option Buf :=
  if k < b.cap then some { b with val := fun x => if x = k then v else b.val x } else none

/-- include/amino/io.h:50 `AA_IO_ISCOMMENT(*ptr)`; at the end of the string `*ptr` is NUL. -/
def isComment : List Char → Bool
  | [] => false
  | c :: _ => c = '#'

/-- src/io.c:117-137 `aa_io_parsevector` with `X` pointing at the element `x` of the buffer: `k` elements
remain, `i` are read. A failed conversion stores zero before the test. -/
noncomputable def parseLoop (cv : Conv) (b : Buf) (x inc : Nat) : Nat → Nat → List Char → Option (Buf × Nat × List Char)
  | 0, i, p => some (b, i, p)
  | k + 1, i, p =>
    if isComment p then some (b, i, p)
    else match cv p with
      | none => (b.set (x + i * inc) 0).bind fun b => some (b, i, p)
      | some (v, e) => (b.set (x + i * inc) v).bind fun b => parseLoop cv b x inc k (i + 1) (skipblank e)

/-- `aa_io_parsevector`. -/
noncomputable def parsevector (cv : Conv) (s : List Char) (n : Nat) (b : Buf) (x inc : Nat) :
    Option (Buf × Nat × List Char) := parseLoop cv b x inc n 0 s

/-- src/io.c:155-170 `aa_io_fread_matrix_fix` on the lines of the file; a missing line reads as an empty
one (`aa_io_getline` at the end of the file). -/
noncomputable def readFix (cv : Conv) (n lda : Nat) (b : Buf) (cnt i : Nat) : Nat → List (List Char) → Option (Buf × Nat)
  | 0, _ => some (b, cnt)
  | m + 1, ls =>
    (parsevector cv (ls.headD []) n b i lda).bind fun r =>
      readFix cv n lda r.1 (cnt + r.2.1) (i + 1) m ls.tail

/-- The result of `aa_io_fread_matrix_heap`: columns read, or the number of the bad line. -/
inductive Res where
  | cols (n : Nat)
  | bad (line : Nat)
deriving DecidableEq

/-- src/io.c:184-208, the loop of `aa_io_fread_matrix_heap` over the lines of the file (the last line is
what precedes the end of the file). `realloc` keeps the values and changes the capacity; `none` is
undefined behaviour: a write outside of the buffer or a division by zero. -/
noncomputable def readHeap (cv : Conv) (n : Nat) (b : Buf) (lineno readElts : Nat) : List (List Char) → Option (Buf × Res)
  | [] => if n = 0 then none else some (b, .cols (readElts / n))
  | line :: ls =>
    let lineno := lineno + 1
    let line2 := skipblank line
    if line2 = [] ∨ isComment line2 then readHeap cv n b lineno readElts ls
    else
      let b := if b.cap < readElts + n then { b with cap := b.cap * 2 } else b
      (parsevector cv line2 n b readElts 1).bind fun r =>
        if r.2.1 ≠ n then some (r.1, .bad lineno)
        else readHeap cv n r.1 lineno (readElts + r.2.1) ls

/-- src/io.c:172-182: `A` and `elts` on entry; `none` stands for a null pointer. -/
noncomputable def freadMatrixHeap (cv : Conv) (n : Nat) (A : Option Buf) (ls : List (List Char)) : Option (Buf × Res) :=
  match A with
  | none => readHeap cv n ⟨n, fun _ => 0⟩ 0 0 ls
  | some b => readHeap cv n (if b.cap = 0 then ⟨n, fun _ => 0⟩ else b) 0 0 ls

end Verif.Io
