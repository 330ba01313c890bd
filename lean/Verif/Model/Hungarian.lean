import Mathlib.Algebra.Order.Ring.Defs
import Mathlib.Data.List.FinRange
import Mathlib.Logic.Function.Basic

/-!
# Assignment problems (src/la_impl.c:70-359)

The `n x n` work arrays are functions on `Fin n`. Costs are elements of an ordered ring, rounding is
not modelled. Loops whose iterations touch different elements are written as functions of the index.
-/

namespace Verif.Hungarian

variable {K : Type} [CommRing K] [LinearOrder K] {n : Nat}

/-- the local variables of `aa_la_d_opt_hungarian`. In `mask`, 1 is a star and 2 a prime. -/
structure St (K : Type) (n : Nat) where
  A : Fin n → Fin n → K
  mask : Fin n → Fin n → Nat
  rc : Fin n → Bool
  cc : Fin n → Bool
  z : Option (Fin n × Fin n)
  step : Nat

/-- include/amino/la_impl.h:307-318 the element at `aa_la_d_minloc`. -/
def minVal (f : Fin n → K) (h : 0 < n) : K :=
  (List.finRange n).foldl (fun x i => if f i < x then f i else x) (f ⟨0, h⟩)

/-- include/amino/la_impl.h:321-340 `aa_la_d_mat_max` (of an empty matrix: unspecified). -/
def matMax {m n : Nat} (A : Fin m → Fin n → K) : K :=
  if h : 0 < m ∧ 0 < n then
    (List.finRange m).foldl (fun x i => (List.finRange n).foldl (fun x j => if A i j > x then A i j else x) x)
      (A ⟨0, h.1⟩ ⟨0, h.2⟩)
  else 0

/-- the cells in column major order. -/
def cells (n : Nat) : List (Fin n × Fin n) :=
  (List.finRange n).flatMap fun j => (List.finRange n).map fun i => (i, j)

/-- assignment to an element of an array. -/
def upd {α : Type} (M : Fin n → Fin n → α) (i j : Fin n) (v : α) : Fin n → Fin n → α :=
  fun a b => if a = i ∧ b = j then v else M a b

def upd1 {α : Type} (f : Fin n → α) (i : Fin n) (v : α) : Fin n → α := fun a => if a = i then v else f a

/-- src/la_impl.c:89-97 subtract the smallest element of every column. -/
def redCols (A : Fin n → Fin n → K) : Fin n → Fin n → K :=
  fun i j => A i j - minVal (fun i => A i j) j.pos

/-- src/la_impl.c:99-106 subtract the smallest element of every row. -/
def redRows (A : Fin n → Fin n → K) : Fin n → Fin n → K :=
  fun i j => A i j - minVal (fun j => A i j) i.pos

/-- src/la_impl.c:110-122 star zeros. `col_cover[j]` is still 0 when column `j` is visited. -/
def star (A : Fin n → Fin n → K) : (Fin n → Fin n → Nat) × (Fin n → Bool) :=
  (List.finRange n).foldl (fun s j =>
    match (List.finRange n).find? (fun i => decide (A i j ≤ 0) && !s.2 i) with
    | some i => (upd s.1 i j 1, upd1 s.2 i true)
    | none => s) (fun _ _ => 0, fun _ => false)

/-- src/la_impl.c:80-127 -/
def init (C : Fin n → Fin n → K) : St K n :=
  let A := redRows (redCols C)
  ⟨A, (star A).1, fun _ => false, fun _ => false, none, 3⟩

/-- src/la_impl.c:130-151 -/
def step3 (s : St K n) : St K n :=
  let cc := fun j => s.cc j || (List.finRange n).any (fun i => s.mask i j == 1)
  { s with cc := cc, step := if (List.finRange n).all cc then 7 else 4 }

/-- src/la_impl.c:152-189, one turn of the `while` loop. -/
def step4 (s : St K n) : St K n :=
  match (cells n).find? (fun p => decide (s.A p.1 p.2 ≤ 0) && !s.rc p.1 && !s.cc p.2) with
  | none => { s with step := 6 }
  | some (i, j) =>
    let mask := upd s.mask i j 2
    match (List.finRange n).find? (fun k => mask i k == 1) with
    | some k => { s with mask := mask, rc := upd1 s.rc i true, cc := upd1 s.cc k false }
    | none => { s with mask := mask, z := some (i, j), step := 5 }

/-- src/la_impl.c:202-231, one turn of the loop over `i`: the last cell of the path, then the others. -/
def pathTurn (mask : Fin n → Fin n → Nat) (path : (Fin n × Fin n) × List (Fin n × Fin n)) (i : Fin n) :
    (Fin n × Fin n) × List (Fin n × Fin n) :=
  if mask i path.1.2 == 1 then
    match (List.finRange n).find? (fun j => mask i j == 2) with
    | some j => ((i, j), (i, path.1.2) :: path.1 :: path.2)
    | none => ((i, path.1.2), path.1 :: path.2)
  else path

/-- src/la_impl.c:195-232 the path. The loop over `i` runs once: it leaves `i = n`, which ends the
outer loop, and it is not restarted when the column changes. -/
def path (mask : Fin n → Fin n → Nat) (z : Fin n × Fin n) : List (Fin n × Fin n) :=
  let p := (List.finRange n).foldl (pathTurn mask) (z, [])
  p.1 :: p.2

/-- src/la_impl.c:236-241 -/
def toggle (mask : Fin n → Fin n → Nat) (l : List (Fin n × Fin n)) : Fin n → Fin n → Nat :=
  l.foldr (fun p m => upd m p.1 p.2 (if m p.1 p.2 == 1 then 0 else 1)) mask

/-- src/la_impl.c:190-255 -/
def step5 (s : St K n) : St K n :=
  match s.z with
  | none => { s with step := 3 }
  | some z =>
    let mask := toggle s.mask (path s.mask z)
    { s with mask := fun i j => if mask i j == 2 then 0 else mask i j,
             rc := fun _ => false, cc := fun _ => false, step := 3 }

/-- src/la_impl.c:259-268 -/
def minval (mx : K) (s : St K n) : K :=
  (cells n).foldl (fun v p => if !s.rc p.1 && !s.cc p.2 && decide (s.A p.1 p.2 < v) then s.A p.1 p.2 else v) mx

/-- src/la_impl.c:256-280 -/
def step6 (mx : K) (s : St K n) : St K n :=
  let v := minval mx s
  { s with A := fun i j => s.A i j + (if s.rc i then v else 0) - (if s.cc j then 0 else v), step := 4 }

/-- src/la_impl.c:128-282 one turn of the `do` loop; `mx` is `max_cost`. -/
def next (mx : K) (s : St K n) : St K n :=
  match s.step with
  | 3 => step3 s
  | 4 => step4 s
  | 5 => step5 s
  | _ => step6 mx s

/-- src/la_impl.c:128-282 the `do` loop, at most `fuel` turns. -/
def loop (mx : K) : Nat → St K n → Option (St K n)
  | fuel, s => if 7 ≤ s.step then some s else
    match fuel with
    | 0 => none
    | f + 1 => loop mx f (next mx s)

/-- src/la_impl.c:285-294 the assignments, from the contents `ra`, `ca` of the arrays. -/
def assign (mask : Fin n → Fin n → Nat) (ra ca : Fin n → Int) : (Fin n → Int) × (Fin n → Int) :=
  (cells n).foldl (fun r p =>
    if mask p.1 p.2 == 1 then (upd1 r.1 p.1 (p.2 : Nat), upd1 r.2 p.2 (p.1 : Nat)) else r) (ra, ca)

/-- src/la_impl.c:70-297 `aa_la_d_opt_hungarian`; `none` when `fuel` turns do not suffice. -/
def opt (fuel : Nat) (C : Fin n → Fin n → K) (ra ca : Fin n → Int) : Option ((Fin n → Int) × (Fin n → Int)) :=
  (loop (matMax C) fuel (init C)).map fun s => assign s.mask ra ca

/-- src/la_impl.c:299-309 `aa_la_d_assign_hungarian_max2min`. -/
def max2min {m n : Nat} (C : Fin m → Fin n → K) : Fin m → Fin n → K := fun i j => matMax C - C i j

/-- src/la_impl.c:322-335 the padded work matrix. -/
def pad (m n : Nat) (A : Nat → Nat → K) : Fin (max m n) → Fin (max m n) → K :=
  fun i j => if i.val < m ∧ j.val < n then A i j else 0

/-- src/la_impl.c:311-359 `aa_la_d_assign_hungarian`: the `m` row assignments and the `n` column
assignments. -/
def assignHungarian (fuel m n : Nat) (A : Nat → Nat → K) (ra ca : Fin (max m n) → Int) :
    Option ((Fin m → Int) × (Fin n → Int)) :=
  (opt fuel (pad m n A) ra ca).map fun r =>
    (fun i => let j := r.1 ⟨i, by omega⟩; if m > n ∧ (n : Int) ≤ j then -1 else j,
     fun j => let i := r.2 ⟨j, by omega⟩; if m < n ∧ (m : Int) ≤ i then -1 else i)

end Verif.Hungarian
