/-! Growable vectors: `AA_VECTOR_PUSH` and `AA_VECTOR_DEF` (include/amino/mem.h:780-802). -/

namespace Verif.Vector

/-- The vector struct with its buffer. `reallocs` is a ghost counter. -/
structure Vec (α : Type) where
  max : Nat
  size : Nat
  data : Nat → α
  reallocs : Nat

/-- `vector_init` (mem.h:793-798); `g` is the uninitialised memory from malloc. -/
def init {α} (max : Nat) (g : Nat → α) : Vec α := ⟨max, 0, g, 0⟩

/-- `realloc` of the buffer to `n` elements: the first `min` elements are kept,
the others are arbitrary (`g`). -/
def realloc {α} (v : Vec α) (n : Nat) (g : Nat → α) : Vec α :=
  { v with max := n, reallocs := v.reallocs + 1,
           data := fun i => if i < min v.max n then v.data i else g i }

/-- `AA_VECTOR_PUSH` (mem.h:780-785); `none` is a store outside the buffer. -/
def push {α} (v : Vec α) (x : α) (g : Nat → α) : Option (Vec α) :=
  let v := if v.size ≥ v.max then realloc v (2 * (v.size + 1)) g else v
  if v.size < v.max then
    some { v with size := v.size + 1, data := fun i => if i = v.size then x else v.data i }
  else none

/-- Push a list of values; each comes with the garbage a realloc would return. -/
def pushAll {α} (v : Vec α) : List (α × (Nat → α)) → Option (Vec α)
  | [] => some v
  | (x, g) :: xs =>
    match push v x g with
    | none => none
    | some v => pushAll v xs

/-- The contents a client sees: `data[0 .. size-1]`. -/
def toList {α} (v : Vec α) : List α := (List.range v.size).map v.data

end Verif.Vector
