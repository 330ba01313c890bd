/-! Bit sets (include/amino/mem.h:620-728). `aa_bits` is `int`: 32-bit words.
A bit set is an array of words. -/

namespace Verif.Bits

abbrev Word := BitVec 32

/-- `aa_bits_words` (mem.h:635-641). -/
def words (n : Nat) : Nat :=
  let w := n / 32
  if w * 4 * 8 < n then w + 1 else w

/-- `aa_bits_size` (mem.h:644-648). -/
def size (n : Nat) : Nat := words n * 4

/-- `aa_bits_get` (mem.h:657-664): arithmetic shift of a signed word; `none` is a
read outside the array. -/
def get (b : Array Word) (i : Nat) : Option Nat :=
  let j := i / 32
  let k := i - j * 32
  b[j]?.map fun w => ((w.sshiftRight k) &&& 1#32).toNat

/-- `aa_bits_getn` (mem.h:672-677); `n` is compared with a size in octets. -/
def getn (b : Array Word) (n i : Nat) : Option Nat :=
  if size (i + 1) > n then some 0 else get b i

/-- `aa_bits_set` (mem.h:682-692). -/
def set (b : Array Word) (i : Nat) (v : Int) : Option (Array Word) :=
  let j := i / 32
  let k := i - j * 32
  match b[j]? with
  | none => none
  | some w => some (b.setIfInBounds j (if v ≠ 0 then w ||| (1#32 <<< k) else w &&& ~~~(1#32 <<< k)))

/-- Outcome of the word loops. -/
inductive Res where
  | done (a : Array Word)
  | ub
  | fuel
deriving DecidableEq

/-- The loop shared by `aa_bits_and/or/xor` (mem.h:701-703, 713-715, 725-727):
`while( n_words ) a[n_words] op= b[n_words];`, cut after `fuel` iterations. -/
def loop (f : Word → Word → Word) (n : Nat) (b : Array Word) : Nat → Array Word → Res
  | 0, a => if n = 0 then .done a else .fuel
  | fuel + 1, a =>
    if n = 0 then .done a
    else match a[n]?, b[n]? with
      | some x, some y => loop f n b fuel (a.setIfInBounds n (f x y))
      | _, _ => .ub

/-- `aa_bits_and` (mem.h:697-704). -/
def and (fuel : Nat) (a b : Array Word) (nbits : Nat) : Res := loop (· &&& ·) (words nbits) b fuel a
/-- `aa_bits_or` (mem.h:709-716). -/
def or (fuel : Nat) (a b : Array Word) (nbits : Nat) : Res := loop (· ||| ·) (words nbits) b fuel a
/-- `aa_bits_xor` (mem.h:721-728). -/
def xor (fuel : Nat) (a b : Array Word) (nbits : Nat) : Res := loop (· ^^^ ·) (words nbits) b fuel a

end Verif.Bits
