import Verif.Model.Traj
import Verif.Model.Region

/-!
# `aa_ct_seg_list_check_c0`, src/ct/traj.cpp:1034-1114

The two evaluated states are abstracted to `St n`; where they lie in the thread-local memory region
is a second, separate part of the model (`stateAlloc`, `c0Region`), which needs of the first part
only the code returned and whether the two pointers are exchanged at the end.  The `fprintf` of the
warnings (one of which reads `dq[1]`, outside the array of a trajectory of one joint) are not
modelled.
-/

namespace Verif.Ct

open Verif.Region (Reg Out)

/-- The fields `type` and `cx` of `struct aa_ct_seg`, include/amino/ct/traj.h:54-56: constant velocity
(`AA_CT_LIN_SEG`), constant acceleration (`AA_CT_ACCL_SEG`), parabolic blend (`AA_CT_PB_SEG`). -/
inductive SegTy (n : Nat) where
  | lin (c : SegDq n)
  | accl (c : SegDdq n)
  | pb (c : Pb n)

/-- `struct aa_ct_seg`: the function called for `eval`, and type and context. -/
structure TSeg (n : Nat) where
  ev : Seg n
  ty : SegTy n

/-- The two times at which a segment and its successor are evaluated, src/ct/traj.cpp:1074-1093.
`none`: the context of the successor is read as one of a different type. -/
noncomputable def endTimes {n : Nat} : SegTy n → SegTy n → Option (ℝ × ℝ)
  | .lin c, .lin m => some (c.t1, m.t0)
  | .pb c, .pb m => some (c.t + c.dt - m.b / 2, m.t - m.b / 2)
  | _, _ => none

/-- `state_diff`, src/ct/traj.cpp:1051-1055 and 1094-1098. -/
noncomputable def dist1 {n : Nat} (a b : Fin n → ℝ) : ℝ := ∑ i, |a i - b i|

/-- What the sampling loop leaves: whether it returned 1, the two states (as `state0` and `state1`
name them), and whether the pointers are exchanged. -/
structure C0Loop (n : Nat) where
  fail : Bool
  s0 : St n
  s1 : St n
  swapped : Bool

open Classical in
/-- The loop of src/ct/traj.cpp:1047-1069.  `none`: not finished within `fuel` rounds, or the list
is empty. -/
noncomputable def c0Steps {n : Nat} (segs : List (Seg n)) (dt tol : ℝ) :
    Nat → Option Nat → St n → St n → ℝ → ℝ → Bool → Option (C0Loop n)
  | 0, _, _, _, _, _, _ => none
  | fuel + 1, it, s0, s1, t0, t1, sw => do
    let r1 ← listEval segs it s1 t1
    if r1.1 then
      let r0 ← listEval segs r1.2.2 s0 t0
      if tol < dist1 r1.2.1.q r0.2.1.q then some ⟨true, r0.2.1, r1.2.1, sw⟩
      else c0Steps segs dt tol fuel r0.2.2 r1.2.1 r0.2.1 (t0 + dt) (t1 + dt) (!sw)
    else some ⟨false, s0, r1.2.1, sw⟩

open Classical in
/-- The loop over consecutive segments, src/ct/traj.cpp:1071-1107: the code returned. -/
noncomputable def c0Ends {n : Nat} (eps : ℝ) : List (TSeg n) → St n → St n → Option Int
  | [], _, _ => none
  | [_], _, _ => some 0
  | c :: m :: rest, s0, s1 =>
    match c.ty with
    | .accl _ => some 3
    | ty => do
      let e ← endTimes ty m.ty
      let r0 := (c.ev s0 e.1).2
      let r1 := (m.ev s1 e.2).2
      if eps < dist1 r1.q r0.q then some 2 else c0Ends eps (m :: rest) r0 r1

/-- A state as `aa_ct_state_alloc` returns it, src/ct/state.c:45-70. -/
def stZero (n : Nat) : St n := ⟨fun _ => 0, fun _ => 0, fun _ => 0⟩

/-- `aa_ct_seg_list_check_c0`, src/ct/traj.cpp:1034-1114, on a list whose iterator is `it`: the
code, and whether `state0` and `state1` are exchanged at the return. -/
noncomputable def checkC0 {n : Nat} (segs : List (TSeg n)) (dt tol eps : ℝ) (fuel : Nat)
    (it : Option Nat) : Option (Int × Bool) := do
  let evs := segs.map TSeg.ev
  let r ← listEval evs it (stZero n) dt
  let l ← c0Steps evs dt tol fuel r.2.2 (stZero n) r.2.1 0 dt false
  if l.fail then some (1, l.swapped)
  else do
    let code ← c0Ends eps segs l.s0 l.s1
    some (code, l.swapped)

/-- The segments `aa_ct_tjq_lin_generate` adds, src/ct/traj.cpp:393-397. -/
noncomputable def linT {n : Nat} (l : List (SegDq n)) : List (TSeg n) :=
  l.map fun c => ⟨c.eval, .lin c⟩

/-- The segments `aa_ct_tjq_trap_generate` adds. -/
noncomputable def trapT {n : Nat} (l : List (Trap n)) : List (TSeg n) :=
  l.flatMap fun s => [⟨s.acc.eval, .accl s.acc⟩, ⟨s.con.eval, .lin s.con⟩, ⟨s.dec.eval, .accl s.dec⟩]

/-- The segments `aa_ct_tjq_pb_generate` adds; `p` is the predecessor. -/
noncomputable def pbT {n : Nat} : Option (Pb n) → List (Pb n) → List (TSeg n)
  | _, [] => []
  | p, c :: cs => ⟨pbEval p c cs.head?, .pb c⟩ :: pbT (some c) cs

/-! ## The memory region -/

/-- `AA_MEM_REGION_NEW_N` in turn, with `malloc` answering `a`, `a + 2^20`, …; the address of the
first block is returned by `stateAlloc`. -/
def allocAll (r : Reg) : List Nat → Nat → Out Reg
  | [], _ => .ok r
  | s :: ss, a =>
    match Region.alloc r s a with
    | .ok x => allocAll x.1 ss (a + 2 ^ 20)
    | .ub => .ub
    | .oracle => .oracle

/-- `aa_ct_state_alloc` for `n` joints and no frames, src/ct/state.c:45-70: region, and address of
the structure (11 words: include/amino/ct/state.h:52-70). -/
def stateAlloc (r : Reg) (n a : Nat) : Out (Reg × Nat) :=
  match Region.alloc r 88 a with
  | .ok x =>
    match allocAll x.1 [8 * n, 8 * n, 8 * n, 8 * n, 56, 48, 48, 0, 0] (a + 2 ^ 20) with
    | .ok r' => .ok (r', x.2)
    | .ub => .ub
    | .oracle => .oracle
  | .ub => .ub
  | .oracle => .oracle

/-- The region when `aa_ct_seg_list_check_c0` returns `code` with the pointers exchanged or not:
src/ct/traj.cpp:1062, 1092, 1105 return without popping; 1109-1110 pop `state0`, then `state1`. -/
def c0Pops (r : Reg) (p0 p1 : Nat) (code : Int) (swapped : Bool) (a : Nat) : Out Reg :=
  if code = 0 then
    match Region.pop r (if swapped then p1 else p0) a with
    | .ok r => Region.pop r (if swapped then p0 else p1) (a + 2 ^ 20)
    | .ub => .ub
    | .oracle => .oracle
  else .ok r

/-- The effect of one call on the region: src/ct/traj.cpp:1040-1043 and the return. -/
def c0Region (r : Reg) (n : Nat) (code : Int) (swapped : Bool) (a : Nat) : Out Reg :=
  match stateAlloc r n a with
  | .ok x =>
    match stateAlloc x.1 n (a + 2 ^ 30) with
    | .ok y => c0Pops y.1 x.2 y.2 code swapped (a + 2 ^ 40)
    | .ub => .ub
    | .oracle => .oracle
  | .ub => .ub
  | .oracle => .oracle

end Verif.Ct
