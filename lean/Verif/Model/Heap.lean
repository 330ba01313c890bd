/-! Array heaps (src/heap.c). The array is a function from index to element;
an element of `size` bytes is one value (byte level: property C13). `c` is the
comparison function, negative for "less". -/

namespace Verif.Heap

variable {α : Type}

/-- `aa_memswap` of two elements. -/
def swap (f : Nat → α) (i j : Nat) : Nat → α := fun k => if k = i then f j else if k = j then f i else f k

/-- The index chosen in one round of `aa_aheap_heapify` (src/heap.c:71-85). -/
def top (c : α → α → Int) (n : Nat) (f : Nat → α) (i : Nat) : Nat :=
  let l := 2 * i + 1
  let r := l + 1
  let t := if l < n ∧ 0 > c (f i) (f l) then l else i
  if r < n ∧ 0 > c (f t) (f r) then r else t

theorem top_cases (c : α → α → Int) (n : Nat) (f : Nat → α) (i : Nat) :
    top c n f i = i ∨ (i < top c n f i ∧ top c n f i < n) := by
  simp only [top]; split <;> split <;> omega

/-- `aa_aheap_heapify` (src/heap.c:67-98). -/
def heapify (c : α → α → Int) (n : Nat) (f : Nat → α) (i : Nat) : Nat → α :=
  if _h : top c n f i ≠ i then heapify c n (swap f i (top c n f i)) (top c n f i) else f
termination_by n - i
decreasing_by have := top_cases c n f i; omega

/-- The loop of `aa_aheap_build` (src/heap.c:103-107), from `i` down to 0. -/
def buildFrom (c : α → α → Int) (n : Nat) (f : Nat → α) : Nat → Nat → α
  | 0 => heapify c n f 0
  | i + 1 => buildFrom c n (heapify c n f (i + 1)) i

/-- `aa_aheap_build` (src/heap.c:101-108). -/
def build (c : α → α → Int) (n : Nat) (f : Nat → α) : Nat → α := buildFrom c n f (n / 2)

/-- The loop of `aa_aheap_sort` (src/heap.c:118-122), from `i` down to 1. -/
def sortFrom (c : α → α → Int) (f : Nat → α) : Nat → Nat → α
  | 0 => f
  | i + 1 => sortFrom c (heapify c (i + 1) (swap f 0 (i + 1)) 0) i

/-- `aa_aheap_sort` (src/heap.c:110-123). -/
def sort (c : α → α → Int) (n : Nat) (f : Nat → α) : Nat → α :=
  if 1 ≥ n then f else sortFrom c (build c n f) (n - 1)

/-- `aa_aheap_check` (src/heap.c:52-64). -/
def check (c : α → α → Int) (n : Nat) (f : Nat → α) (i : Nat) : Nat :=
  let visit (j : Nat) (rest : Unit → Nat) (rec : Unit → Nat) : Nat :=
    if j < n then
      if 0 > c (f i) (f j) then i
      else
        let k := rec ()
        if k ≠ 0 then k else rest ()
    else rest ()
  if h : i < n then
    visit (2 * i + 1)
      (fun _ => visit (2 * i + 2) (fun _ => 0) (fun _ => check c n f (2 * i + 2)))
      (fun _ => check c n f (2 * i + 1))
  else 0
termination_by n - i

end Verif.Heap
