import Verif.Model.Region

/-!
# Filled blocks of a region (src/mem.c:217-233, 258-278)

The region is that of `Verif.Region`; bytes are a function on addresses. Memory of the client outside of
the region is described by `ext p n`: the `n` bytes at `p` may be read.
-/

namespace Verif.Region

/-- `memset(p, 0, n)`. -/
def memset0 (heap : List Chunk) (m : Nat → Nat) (p n : Nat) : Out (Nat → Nat) :=
  if readable heap p n then .ok fun x => if p ≤ x ∧ x < p + n then 0 else m x else .ub

/-- src/mem.c:217-222 `aa_mem_region_zalloc`. -/
def zalloc (r : Reg) (m : Nat → Nat) (size a : Nat) : Out (Reg × (Nat → Nat) × Nat) := do
  let (r, p) ← alloc r size a
  let m ← memset0 r.heap m p size
  return (r, m, p)

/-- `memcpy(dst, src, n)` where the source may be memory of the client. -/
def memcpyIn (ext : Nat → Nat → Bool) (heap : List Chunk) (m : Nat → Nat) (dst src n : Nat) : Out (Nat → Nat) :=
  if readable heap dst n ∧ (readable heap src n ∨ ext src n = true) ∧ (n = 0 ∨ dst + n ≤ src ∨ src + n ≤ dst) then
    .ok fun x => if dst ≤ x ∧ x < dst + n then m (src + (x - dst)) else m x
  else .ub

/-- src/mem.c:224-228 `aa_mem_region_dup`. -/
def dup (ext : Nat → Nat → Bool) (r : Reg) (m : Nat → Nat) (src size a : Nat) : Out (Reg × (Nat → Nat) × Nat) := do
  let (r, p) ← alloc r size a
  let m ← memcpyIn ext r.heap m p src size
  return (r, m, p)

/-- `strlen` on the first `fuel` bytes. -/
def strlen (m : Nat → Nat) (p : Nat) : Nat → Option Nat
  | 0 => none
  | fuel + 1 => if m p = 0 then some 0 else (strlen m (p + 1) fuel).map (· + 1)

/-- src/mem.c:230-233 `aa_mem_region_strdup`; a string has less than 2^64 bytes. -/
def strdup (ext : Nat → Nat → Bool) (r : Reg) (m : Nat → Nat) (str a : Nat) : Out (Reg × (Nat → Nat) × Nat) :=
  match strlen m str (2 ^ 64) with
  | none => .ub
  | some n => dup ext r m str (1 + n) a

/-- `vsnprintf(p, size, ...)` when the formatted text is `text`. -/
def vsnprintf (heap : List Chunk) (m : Nat → Nat) (p size : Nat) (text : List Nat) : Out (Nat → Nat) :=
  if size = 0 then .ok m
  else if readable heap p size then
    .ok fun x => if p ≤ x ∧ x < p + min text.length (size - 1) then text.getD (x - p) 0
      else if x = p + min text.length (size - 1) then 0 else m x
  else .ub

/-- conversion of a `size_t` to a 32 bit `int`. -/
def cint (n : Nat) : Int := if n % 2 ^ 32 < 2 ^ 31 then ((n % 2 ^ 32 : Nat) : Int) else ((n % 2 ^ 32 : Nat) : Int) - 2 ^ 32

/-- src/mem.c:260-269, the loop; `none` when it has not ended after `fuel` rounds. `orc` answers `malloc`. -/
def vprintfLoop (text : List Nat) (orc : Nat → Nat) : Nat → Reg → (Nat → Nat) → Out (Option (Reg × (Nat → Nat)))
  | 0, _, _ => .ok none
  | fuel + 1, r, m => do
    let n ← freesize r
    let m ← vsnprintf r.heap m r.head n text
    if (text.length : Int) ≥ cint n then do
      let (r, _) ← tmpalloc r (text.length + 1) (orc fuel)
      vprintfLoop text orc fuel r m
    else return some (r, m)

/-- the end of src/mem.c:258-270. -/
def vprintfEnd (text : List Nat) (a : Nat) : Option (Reg × (Nat → Nat)) → Out (Option (Reg × (Nat → Nat) × Nat))
  | none => .ok none
  | some (r, m) => do
    let (r, p) ← alloc r (text.length + 1) a
    return some (r, m, p)

/-- src/mem.c:258-270 `aa_mem_region_vprintf` and 272-278 `aa_mem_region_printf`, for arguments that can be
formatted (the result of `vsnprintf` is not negative). -/
def vprintf (text : List Nat) (orc : Nat → Nat) (fuel : Nat) (r : Reg) (m : Nat → Nat) (a : Nat) :
    Out (Option (Reg × (Nat → Nat) × Nat)) := do
  let x ← vprintfLoop text orc fuel r m
  vprintfEnd text a x

end Verif.Region
