/-! `aa_memswap` (include/amino/mem.h:741-759). Memory is a map from addresses to
bytes. `aa_memswap_type` is `long`, 8 bytes (LP64). -/

namespace Verif.Swap

abbrev Mem := Nat → UInt8

def store (m : Mem) (p : Nat) (v : UInt8) : Mem := fun x => if x = p then v else m x

/-- Load / store of one 8-byte word as its bytes. -/
def loadW (m : Mem) (p : Nat) : Fin 8 → UInt8 := fun i => m (p + i)
def storeW (m : Mem) (p : Nat) (w : Fin 8 → UInt8) : Mem :=
  fun x => if h : p ≤ x ∧ x < p + 8 then w ⟨x - p, by omega⟩ else m x

/-- The word loop (mem.h:746-750): iterations `i .. n-1`. -/
def wloop (a b : Nat) : Nat → Nat → Mem → Mem
  | 0, _, m => m
  | k + 1, i, m =>
    let tmp := loadW m (a + 8 * i)
    let m := storeW m (a + 8 * i) (loadW m (b + 8 * i))
    let m := storeW m (b + 8 * i) tmp
    wloop a b k (i + 1) m

/-- The byte loop (mem.h:753-757). -/
def bloop (a b : Nat) : Nat → Nat → Mem → Mem
  | 0, _, m => m
  | k + 1, i, m =>
    let tmp := m (a + i)
    let m := store m (a + i) (m (b + i))
    let m := store m (b + i) tmp
    bloop a b k (i + 1) m

/-- `aa_memswap` (mem.h:741-759). -/
def memswap (m : Mem) (a b size : Nat) : Mem :=
  let m := wloop a b (size / 8) 0 m
  let i0 := size - size % 8
  bloop a b (size - i0) i0 m

end Verif.Swap
