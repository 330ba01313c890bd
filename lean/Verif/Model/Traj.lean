import Mathlib.Analysis.Real.Sqrt
import Mathlib.Data.List.OfFn
import Mathlib.Data.Fin.VecNotation
import Mathlib.Logic.Function.Basic

/-!
# Model of the trajectory library (src/ct/traj.cpp, src/ct/state.c)

Double arithmetic is modelled over `ℝ`; an operation whose double result would not be finite
(division by zero) is the distinct outcome `none`.  All states of one trajectory have the same
number `n` of configurations (the code takes minima and prints a warning otherwise); vectors are
functions on `Fin n`.
-/

namespace Verif.Ct

/-! ## States and point lists -/

/-- `struct aa_ct_state`, include/amino/ct/state.h:52-70; a NULL array is `none`. -/
structure CtState where
  nq : Nat
  ntf : Nat
  q : Option (Nat → ℝ)
  dq : Option (Nat → ℝ)
  ddq : Option (Nat → ℝ)
  eff : Option (Nat → ℝ)
  X : Option (Nat → ℝ)
  dX : Option (Nat → ℝ)
  ddX : Option (Nat → ℝ)
  tfAbs : Option (Nat → ℝ)
  tfRel : Option (Nat → ℝ)

/-- `AA_EPSILON`, include/amino/math.h:57-60. -/
noncomputable def eps : ℝ := 1 / 1000

open Classical in
/-- `aa_veq`, src/math.c:47-52, with `aa_feq`, include/amino/math.h:114-116. -/
noncomputable def veq : Nat → (Nat → ℝ) → (Nat → ℝ) → Bool
  | 0, _, _ => true
  | n + 1, a, b => veq n a b && decide (|a n - b n| ≤ eps)

/-- One clause of `aa_ct_state_eq`: equally NULL, and equal entries when present
(src/ct/state.c, the repeated `if … else if …` pattern of `aa_ct_state_eq`). -/
noncomputable def arrEq (n : Nat) : Option (Nat → ℝ) → Option (Nat → ℝ) → Bool
  | none, none => true
  | some a, some b => veq n a b
  | _, _ => false

/-- `aa_ct_state_eq`, src/ct/state.c:146-193; efforts and frames are not compared there. -/
noncomputable def stateEq (s1 s2 : CtState) : Bool :=
  if s1.nq ≠ s2.nq ∨ s1.ntf ≠ s2.ntf then false
  else arrEq s1.nq s1.q s2.q && arrEq s1.nq s1.dq s2.dq && arrEq s1.nq s1.ddq s2.ddq
    && arrEq 7 s1.X s2.X && arrEq 6 s1.dX s2.dX && arrEq 6 s1.ddX s2.ddX

/-- `state_clone_helper`, src/ct/state.c:72-79: `cnt` entries are copied (the rest does not exist
in the copy). -/
def cloneArr (cnt : Nat) (a : Option (Nat → ℝ)) : Option (Nat → ℝ) :=
  a.map fun f i => if i < cnt then f i else 0

/-- `aa_ct_state_clone`, src/ct/state.c:81-105. -/
def stateClone (s : CtState) : CtState where
  nq := s.nq
  ntf := s.ntf
  q := cloneArr s.nq s.q
  dq := cloneArr s.nq s.dq
  ddq := cloneArr s.nq s.ddq
  eff := cloneArr s.nq s.eff
  X := cloneArr 7 s.X
  dX := cloneArr 6 s.dX
  ddX := cloneArr 6 s.ddX
  tfAbs := cloneArr s.ntf s.tfAbs
  tfRel := cloneArr s.ntf s.tfRel

/-- Value of a `prev`/`next` pointer.  `indet` is the result of calling `back()` or `front()` on
an empty `std::list`, which is undefined. -/
inductive Link where
  | null
  | node (k : Nat)
  | indet
deriving DecidableEq, Repr

/-- A list container of include/amino/ct/traj_internal.hpp: the `std::list` of nodes, and in the
nodes (numbered in allocation order) the value and the explicit links. -/
structure PList (α : Type) where
  list : List Nat
  val : Nat → α
  prev : Nat → Link
  next : Nat → Link
  fresh : Nat

namespace PList
variable {α : Type}

/-- `aa_ct_pt_list_create`, src/ct/traj.cpp:88-92: an empty list. -/
def empty (d : α) : PList α := ⟨[], fun _ => d, fun _ => .null, fun _ => .null, 0⟩

/-- `list.back()` as a pointer. -/
def back (l : PList α) : Link := match l.list.getLast? with
  | none => .indet
  | some k => .node k

/-- `list.front()` as a pointer. -/
def front (l : PList α) : Link := match l.list.head? with
  | none => .indet
  | some k => .node k

/-- `aa_ct_list_add`, src/ct/traj.cpp:54-65, on a newly allocated node holding `v`. -/
def add (l : PList α) (v : α) : PList α :=
  let k := l.fresh
  let next := Function.update l.next k .null
  let next := match l.list.getLast? with
    | none => next
    | some b => Function.update next b (.node k)
  let prev := Function.update l.prev k l.back
  { list := l.list ++ [k], val := Function.update l.val k v, prev := prev, next := next,
    fresh := k + 1 }

/-- `aa_ct_list_add_front`, src/ct/traj.cpp:73-83. -/
def addFront (l : PList α) (v : α) : PList α :=
  let k := l.fresh
  let prev := Function.update l.prev k .null
  let prev := match l.list.head? with
    | none => prev
    | some b => Function.update prev b (.node k)
  let next := Function.update l.next k l.front
  { list := k :: l.list, val := Function.update l.val k v, prev := prev, next := next,
    fresh := k + 1 }

end PList

/-- `aa_ct_pt_list_add`, src/ct/traj.cpp:94-109. -/
noncomputable def ptAdd (l : PList CtState) (s : CtState) : PList CtState :=
  match l.list.getLast? with
  | none => l.add (stateClone s)
  | some p => if stateEq (l.val p) s then l else l.add (stateClone s)

/-- `aa_ct_pt_list_add_front`, src/ct/traj.cpp:111-126. -/
noncomputable def ptAddFront (l : PList CtState) (s : CtState) : PList CtState :=
  match l.list.head? with
  | none => l.addFront (stateClone s)
  | some p => if stateEq (l.val p) s then l else l.addFront (stateClone s)

/-- `aa_ct_pt_list_start_state`, src/ct/traj.cpp:155-159; undefined on the empty list. -/
def startState (l : PList CtState) : Option CtState := l.list.head?.map l.val

/-- `aa_ct_pt_list_final_state`, src/ct/traj.cpp:162-166; undefined on the empty list. -/
def finalState (l : PList CtState) : Option CtState := l.list.getLast?.map l.val

/-- `aa_ct_pt_list_size`, src/ct/traj.cpp:168-172. -/
def ptSize (l : PList CtState) : Nat := l.list.length

/-! ## Segments and segment lists -/

/-- The part of `struct aa_ct_state` written by joint-space segments (arrays present). -/
structure St (n : Nat) where
  q : Fin n → ℝ
  dq : Fin n → ℝ
  ddq : Fin n → ℝ

/-- `seg->eval`, include/amino/ct/traj.h: the returned code (`true` is `AA_CT_SEG_IN`) and the
state afterwards. -/
abbrev Seg (n : Nat) := St n → ℝ → Bool × St n

/-- The loop of `aa_ct_seg_list_eval`, src/ct/traj.cpp:215-227, from iterator position `i`
(`s :: rest` are the segments from there on): code, state, and the iterator afterwards, `none`
for `it_on = 0`.  The case `[]` is not reached. -/
def evalFrom {n : Nat} : List (Seg n) → Nat → St n → ℝ → Bool × St n × Option Nat
  | [], _, st, _ => (false, st, none)
  | s :: rest, i, st, t =>
    let r := s st t
    if r.1 then (true, r.2, some i)
    else match rest with
      | [] => (false, r.2, none)
      | _ :: _ => evalFrom rest (i + 1) r.2 t

/-- `aa_ct_seg_list_eval`, src/ct/traj.cpp:206-228.  `it = none` is `it_on = 0`; the empty list
dereferences `begin()` of an empty container, which is undefined (`none`). -/
def listEval {n : Nat} (segs : List (Seg n)) (it : Option Nat) (st : St n) (t : ℝ) :
    Option (Bool × St n × Option Nat) :=
  if segs = [] then none
  else some (evalFrom (segs.drop (it.getD 0)) (it.getD 0) st t)

/-- A history of calls of `aa_ct_seg_list_eval` on one list, each with its own state argument:
the codes and states returned. -/
def listRun {n : Nat} (segs : List (Seg n)) :
    Option Nat → List (St n × ℝ) → Option (List (Bool × St n))
  | _, [] => some []
  | it, (st, t) :: calls => do
    let r ← listEval segs it st t
    let rest ← listRun segs r.2.2 calls
    some ((r.1, r.2.1) :: rest)

/-- `struct aa_ct_seg_dq`, src/ct/traj.cpp:319-327. -/
structure SegDq (n : Nat) where
  q0 : Fin n → ℝ
  dq : Fin n → ℝ
  t0 : ℝ
  t1 : ℝ

open Classical in
/-- `aa_ct_seg_dq_eval`, src/ct/traj.cpp:349-376. -/
noncomputable def SegDq.eval {n : Nat} (c : SegDq n) : Seg n := fun st t =>
  if c.t0 ≤ t ∧ t ≤ c.t1 then
    (true, { st with q := fun i => c.q0 i + (t - c.t0) * c.dq i, dq := c.dq })
  else
    (false, { st with q := fun i => c.q0 i + c.dq i * (c.t1 - c.t0) })

/-- The joint limits used here, `struct aa_ct_limit` (include/amino/ct/state.h:75-79):
velocity and acceleration. -/
structure Limits (n : Nat) where
  vmin : Fin n → ℝ
  vmax : Fin n → ℝ
  amin : Fin n → ℝ
  amax : Fin n → ℝ

/-- The running maximum `dt = AA_MAX(dt, dti)` of the generators, started at `a`. -/
noncomputable def maxOver {n : Nat} (a : ℝ) (f : Fin n → ℝ) : ℝ :=
  (List.ofFn f).foldl max a

open Classical in
/-- Time of one joint, src/ct/traj.cpp:405-412. -/
noncomputable def linTime {n : Nat} (L : Limits n) (d : Fin n → ℝ) (i : Fin n) : ℝ :=
  if d i < 0 then d i / L.vmin i else d i / L.vmax i

open Classical in
/-- `aa_ct_seg_dq_new`, src/ct/traj.cpp:377-424.  A zero velocity limit or a zero total time makes
the quotients non-finite: `none`. -/
noncomputable def segDqNew {n : Nat} (L : Limits n) (t0 : ℝ) (q0 q1 : Fin n → ℝ) :
    Option (SegDq n) :=
  let d : Fin n → ℝ := fun i => q1 i - q0 i
  let dt := maxOver 0 (linTime L d)
  if (∃ i, L.vmin i = 0 ∨ L.vmax i = 0) ∨ dt = 0 then none
  else some { q0 := q0, dq := fun i => d i / dt, t0 := t0, t1 := t0 + dt }

/-- The loop of `aa_ct_tjq_lin_generate`, src/ct/traj.cpp:440-453: `p` is `*itr0`, the list holds
the points from `itr1` on, `t` the duration so far.  Result: segments and duration. -/
noncomputable def linLoop {n : Nat} (L : Limits n) :
    (Fin n → ℝ) → List (Fin n → ℝ) → ℝ → Option (List (SegDq n) × ℝ)
  | _, [], t => some ([], t)
  | p, p' :: ps, t => do
    let s ← segDqNew L t p p'
    let r ← linLoop L p' ps s.t1
    some (s :: r.1, r.2)

/-- `aa_ct_tjq_lin_generate`, src/ct/traj.cpp:427-455; `*itr0` of an empty list is undefined. -/
noncomputable def linGenerate {n : Nat} (L : Limits n) :
    List (Fin n → ℝ) → Option (List (SegDq n) × ℝ)
  | [] => none
  | p :: ps => linLoop L p ps 0

/-- `struct aa_ct_seg_ddq`, src/ct/traj.cpp:461-470. -/
structure SegDdq (n : Nat) where
  q0 : Fin n → ℝ
  dq0 : Fin n → ℝ
  ddq : Fin n → ℝ
  t0 : ℝ
  t1 : ℝ

open Classical in
/-- `aa_ct_seg_ddq_eval`, src/ct/traj.cpp:487-508; `sgn` is the sign given to the acceleration
terms, `-1` in the code. -/
noncomputable def SegDdq.evalSgn {n : Nat} (sgn : ℝ) (c : SegDdq n) : Seg n := fun st t =>
  if c.t0 ≤ t ∧ t ≤ c.t1 then
    (true, { st with
      dq := fun i => c.dq0 i + sgn * ((t - c.t0) * c.ddq i)
      q := fun i => c.q0 i + (t - c.t0) * c.dq0 i
        + sgn * ((t - c.t0) * (t - c.t0) * c.ddq i / 2) })
  else (false, st)

/-- `aa_ct_seg_ddq_eval` as written, src/ct/traj.cpp:501-502: the acceleration is subtracted. -/
noncomputable def SegDdq.eval {n : Nat} (c : SegDdq n) : Seg n := c.evalSgn (-1)

open Classical in
/-- Acceleration time of one joint, src/ct/traj.cpp:538-563 (`tai`). -/
noncomputable def trapTa {n : Nat} (L : Limits n) (q0 q1 : Fin n → ℝ) (i : Fin n) : ℝ :=
  let sign : ℝ := if q0 i ≤ q1 i then 1 else -1
  let v := if q0 i ≤ q1 i then L.vmax i else L.vmin i
  let a := if q0 i ≤ q1 i then L.amax i else L.amin i
  let ta := Real.sqrt ((q1 i - q0 i) / a)
  if v * sign < ta * a * sign then v / a else ta

open Classical in
/-- Total time of one joint, src/ct/traj.cpp:538-563 (`dti`). -/
noncomputable def trapDt {n : Nat} (L : Limits n) (q0 q1 : Fin n → ℝ) (i : Fin n) : ℝ :=
  let sign : ℝ := if q0 i ≤ q1 i then 1 else -1
  let v := if q0 i ≤ q1 i then L.vmax i else L.vmin i
  let a := if q0 i ≤ q1 i then L.amax i else L.amin i
  let ta := Real.sqrt ((q1 i - q0 i) / a)
  if v * sign < ta * a * sign then
    let ta := v / a
    let tb := ((q1 i - q0 i) - v * ta) / v
    tb + 2 * ta
  else 2 * ta

/-- The three segments of one trapezoid. -/
structure Trap (n : Nat) where
  acc : SegDdq n
  con : SegDq n
  dec : SegDdq n

open Classical in
/-- `aa_ct_seg_trap_new`, src/ct/traj.cpp:515-642; a zero limit or a zero denominator gives
non-finite values: `none`. -/
noncomputable def trapNew {n : Nat} (L : Limits n) (t0 : ℝ) (q0 q1 : Fin n → ℝ) :
    Option (Trap n) :=
  let dt := maxOver 0 (trapDt L q0 q1)
  let ta := maxOver 0 (trapTa L q0 q1)
  let denom := ta * ta + ta * (dt - 2 * ta)
  let ddq : Fin n → ℝ := fun i => (q1 i - q0 i) / denom
  let cdq : Fin n → ℝ := fun i => ddq i * ta
  let cq0 : Fin n → ℝ := fun i => q0 i + ddq i * ta * ta / 2
  if (∃ i, L.vmin i = 0 ∨ L.vmax i = 0 ∨ L.amin i = 0 ∨ L.amax i = 0) ∨ denom = 0 then none
  else some
    { acc := { q0 := q0, dq0 := fun _ => 0, ddq := ddq, t0 := t0, t1 := t0 + ta }
      con := { q0 := cq0, dq := cdq, t0 := t0 + ta, t1 := t0 + dt - ta }
      dec := { q0 := fun i => cq0 i + cdq i * (dt - 2 * ta), dq0 := cdq,
               ddq := fun i => -ddq i, t0 := t0 + dt - ta, t1 := t0 + dt } }

/-- The loop of `aa_ct_tjq_trap_generate`, src/ct/traj.cpp:660-679. -/
noncomputable def trapLoop {n : Nat} (L : Limits n) :
    (Fin n → ℝ) → List (Fin n → ℝ) → ℝ → Option (List (Trap n) × ℝ)
  | _, [], t => some ([], t)
  | p, p' :: ps, t => do
    let s ← trapNew L t p p'
    let r ← trapLoop L p' ps s.dec.t1
    some (s :: r.1, r.2)

/-- `aa_ct_tjq_trap_generate`, src/ct/traj.cpp:648-682. -/
noncomputable def trapGenerate {n : Nat} (L : Limits n) :
    List (Fin n → ℝ) → Option (List (Trap n) × ℝ)
  | [] => none
  | p :: ps => trapLoop L p ps 0

/-- The three `aa_ct_seg_list_add` of src/ct/traj.cpp:673-675 for every trapezoid; `sgn` as in
`SegDdq.evalSgn`. -/
noncomputable def trapSegs {n : Nat} (sgn : ℝ) (l : List (Trap n)) : List (Seg n) :=
  l.flatMap fun s => [s.acc.evalSgn sgn, s.con.eval, s.dec.evalSgn sgn]

/-! ## Parabolic blends -/

/-- `DBL_MIN`, the start value of `aa_ct_tj_pb_limit`. -/
noncomputable def dblMin : ℝ := 1 / 2 ^ 1022

/-- `DBL_MAX`. -/
noncomputable def dblMax : ℝ := (2 - 1 / 2 ^ 52) * 2 ^ 1023

/-- `struct aa_ct_seg_pb_cx`, src/ct/traj.cpp:690-700. -/
structure Pb (n : Nat) where
  q : Fin n → ℝ
  dq : Fin n → ℝ
  ddq : Fin n → ℝ
  t : ℝ
  dt : ℝ
  b : ℝ

open Classical in
/-- `aa_ct_tj_pb_limit`, src/ct/traj.cpp:765-781, limits present. -/
noncomputable def pbLimit {n : Nat} (a b lo hi : Fin n → ℝ) : ℝ :=
  maxOver dblMin fun i => if a i - b i < 0 then (a i - b i) / lo i else (a i - b i) / hi i

/-- `aa_ct_tj_pb_new`, src/ct/traj.cpp:792-822. -/
noncomputable def pbNew {n : Nat} (L : Limits n) (p : Fin n → ℝ) (next : Option (Fin n → ℝ)) :
    Pb n :=
  { q := p, dq := fun _ => 0, ddq := fun _ => 0, t := 0
    dt := match next with
      | none => dblMax
      | some p' => pbLimit p' p L.vmin L.vmax
    b := 0 }

/-- The populating loop of `aa_ct_tjq_pb_generate`, src/ct/traj.cpp:861-864. -/
noncomputable def pbInit {n : Nat} (L : Limits n) : List (Fin n → ℝ) → List (Pb n)
  | [] => []
  | p :: ps => pbNew L p ps.head? :: pbInit L ps

/-- `aa_ct_tj_pb_update`, src/ct/traj.cpp:830-853. -/
noncomputable def pbUpdate {n : Nat} (L : Limits n) (p : Option (Pb n)) (c : Pb n)
    (nx : Option (Pb n)) : Pb n :=
  let dq : Fin n → ℝ := match nx with
    | some m => fun i => (m.q i - c.q i) / c.dt
    | none => c.dq
  let pdq : Fin n → ℝ := match p with
    | some p => p.dq
    | none => fun _ => 0
  let b := pbLimit dq pdq L.amin L.amax
  { c with
    dq := dq
    b := b
    ddq := fun i => (dq i - pdq i) / b
    t := match p with
      | some p => p.t + p.dt
      | none => b / 2 }

/-- The update pass, src/ct/traj.cpp:875-879: front to back, `p` the (updated) predecessor. -/
noncomputable def pbPass {n : Nat} (L : Limits n) : Option (Pb n) → List (Pb n) → List (Pb n)
  | _, [] => []
  | p, c :: cs =>
    let c' := pbUpdate L p c cs.head?
    c' :: pbPass L (some c') cs

open Classical in
/-- The overlap test, src/ct/traj.cpp:886-896. -/
noncomputable def pbOverlap {n : Nat} (p : Option (Pb n)) (c : Pb n) (nx : Option (Pb n)) : Bool :=
  (match p with
    | some p => decide (p.dt < c.b ∧ 2 * p.dt - p.b < c.b)
    | none => false) ||
  (match nx with
    | some m => decide (c.dt < c.b ∧ 2 * c.dt - m.b < c.b)
    | none => false)

/-- The scale factor `f[i]`, src/ct/traj.cpp:898-903. -/
noncomputable def pbFactor {n : Nat} (p : Option (Pb n)) (c : Pb n) (nx : Option (Pb n)) : ℝ :=
  if pbOverlap p c nx then
    Real.sqrt (min ((p.map (·.dt)).getD dblMax) c.dt / c.b)
  else 1

/-- The checking pass, src/ct/traj.cpp:881-904: the factors and the flag. -/
noncomputable def pbCheck {n : Nat} : Option (Pb n) → List (Pb n) → List ℝ × Bool
  | _, [] => ([], false)
  | p, c :: cs =>
    let r := pbCheck (some c) cs
    (pbFactor p c cs.head? :: r.1, pbOverlap p c cs.head? || r.2)

/-- The scaling pass, src/ct/traj.cpp:906-912: `dt /= fmin(f[i+1], f[i])` but for the last. -/
noncomputable def pbScale {n : Nat} : List (Pb n) → List ℝ → List (Pb n)
  | c :: c' :: cs, f :: f' :: fs =>
    { c with dt := c.dt / min f' f } :: pbScale (c' :: cs) (f' :: fs)
  | cs, _ => cs

/-- The `do … while (flag)` loop of `aa_ct_tjq_pb_generate`, src/ct/traj.cpp:870-913; `none` when
it has not finished within `fuel` rounds. -/
noncomputable def pbLoop {n : Nat} (L : Limits n) : Nat → List (Pb n) → Option (List (Pb n))
  | 0, _ => none
  | fuel + 1, cs =>
    let cs := pbPass L none cs
    let r := pbCheck none cs
    let cs := pbScale cs r.1
    if r.2 then pbLoop L fuel cs else some cs

/-- `list->list.back()->cx->dt = 0`, src/ct/traj.cpp:916. -/
def pbLast {n : Nat} : List (Pb n) → List (Pb n)
  | [] => []
  | [c] => [{ c with dt := 0 }]
  | c :: c' :: cs => c :: pbLast (c' :: cs)

/-- `aa_ct_tjq_pb_generate`, src/ct/traj.cpp:855-929: contexts and duration; `front()` of an empty
list is undefined. -/
noncomputable def pbGenerate {n : Nat} (L : Limits n) (fuel : Nat) (ps : List (Fin n → ℝ)) :
    Option (List (Pb n) × ℝ) :=
  if ps = [] then none else do
  let cs ← pbLoop L fuel (pbInit L ps)
  let cs := pbLast cs
  let c0 ← cs.head?
  let c1 ← cs.getLast?
  some (cs, (cs.foldl (fun d c => d + c.dt) (c0.b / 2)) + c1.b / 2)

open Classical in
/-- `aa_ct_tj_pb_eval`, src/ct/traj.cpp:724-757. -/
noncomputable def pbEval {n : Nat} (p : Option (Pb n)) (c : Pb n) (nx : Option (Pb n)) : Seg n :=
  fun st t =>
    let dt := t - c.t
    let pdq : Fin n → ℝ := match p with
      | some p => p.dq
      | none => fun _ => 0
    if c.t - c.b / 2 ≤ t ∧ t ≤ c.t + c.b / 2 then
      (true, { q := fun i => c.q i + pdq i * dt + c.ddq i * (dt + c.b / 2) ^ 2 / 2
               dq := fun i => pdq i + c.ddq i * (dt + c.b / 2)
               ddq := c.ddq })
    else match nx with
      | none => (false, st)
      | some m =>
        if c.t + c.b / 2 ≤ t ∧ t ≤ c.t + c.dt - m.b / 2 then
          (true, { q := fun i => c.q i + c.dq i * dt, dq := c.dq, ddq := fun _ => 0 })
        else (false, st)

/-- The segments of a blend list with their neighbours (`aa_ct_tj_pb_nbrs`,
src/ct/traj.cpp:710-717; the first segment's `prev` is taken to be NULL). -/
noncomputable def pbSegs {n : Nat} : Option (Pb n) → List (Pb n) → List (Seg n)
  | _, [] => []
  | p, c :: cs => pbEval p c cs.head? :: pbSegs (some c) cs

/-! ## Checking a trajectory -/

/-- `aa_ct_seg_list_check`, src/ct/traj.cpp:1014-1031: `f` is the caller's function (0 accepts),
`t` the current sample time; `none` when the loop has not ended within `fuel` rounds or the list
is empty.  Result: the code returned. -/
def listCheck {n : Nat} (segs : List (Seg n)) (dt : ℝ) (f : ℝ → St n → Int) :
    Nat → Option Nat → St n → ℝ → Option Int
  | 0, _, _, _ => none
  | fuel + 1, it, st, t => do
    let r ← listEval segs it st t
    if r.1 then
      if f t r.2.1 ≠ 0 then some (f t r.2.1)
      else listCheck segs dt f fuel r.2.2 r.2.1 (t + dt)
    else some 0

end Verif.Ct
