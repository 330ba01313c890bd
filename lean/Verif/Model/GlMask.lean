import Verif.Model.Bits

/-! The set of masked frames of a view (src/amino_gl.c:1731-1758).  `none` is undefined behaviour. -/

namespace Verif.GlMask

open Verif.Bits

/-- The members `frame_mask` and `frame_mask_size` (include/amino/rx/scene_gl_internal.h:80-81); a null
pointer is the empty array. -/
structure St where
  mask : Array Word
  size : Nat

/-- src/amino_gl.c:1514: `AA_NEW0`. -/
def create : St := ⟨#[], 0⟩

/-- src/amino_gl.c:1731-1737 `aa_gl_globals_unmask_all`. -/
def unmaskAll (_ : St) : St := ⟨#[], 0⟩

/-- src/amino_gl.c:1739-1743 `aa_gl_globals_is_masked`. -/
def isMasked (s : St) (i : Nat) : Option Nat := getn s.mask s.size i

/-- `realloc` to `n` octets: the words beyond the old block have unspecified contents. -/
def realloc (a : Array Word) (n : Nat) (junk : Nat → Word) : Array Word :=
  Array.ofFn (n := n / 4) (fun k => (a[k.val]?).getD (junk k))

/-- `memset( a + off, 0, len )` for a block of words and a `len` that is a multiple of four: `off` counts
words, `len` octets.  Undefined outside the block. -/
def memset0 (a : Array Word) (off len : Nat) : Option (Array Word) :=
  if off * 4 + len ≤ a.size * 4 then
    some (Array.ofFn (n := a.size) (fun k => if off ≤ k ∧ k.val < off + len / 4 then 0 else a[k]))
  else none

/-- src/amino_gl.c:1745-1758 `aa_gl_globals_mask`; the offset `old_size` counts octets, but is added to a
pointer to words. -/
def mask (s : St) (junk : Nat → Word) (i : Nat) (v : Int) : Option St :=
  let grown : Option St :=
    if Bits.size (i + 1) > s.size then
      let newSize := Bits.size (2 * (i + 1))
      (memset0 (realloc s.mask newSize junk) s.size (newSize - s.size)).map (fun m => ⟨m, newSize⟩)
    else some s
  match grown with
  | none => none
  | some s => (Bits.set s.mask i v).map (fun m => { s with mask := m })

/-- Calls on the set of masked frames. -/
inductive Op
  | mask (junk : Nat → Word) (i : Nat) (v : Int)
  | unmaskAll

/-- One call. -/
def step (s : St) : Op → Option St
  | .mask junk i v => mask s junk i v
  | .unmaskAll => some (unmaskAll s)

/-- A history. -/
def run (s : St) : List Op → Option St
  | [] => some s
  | o :: os =>
    match step s o with
    | none => none
    | some s' => run s' os

end Verif.GlMask
