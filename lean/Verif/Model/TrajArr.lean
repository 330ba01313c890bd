import Verif.Model.Traj

/-!
# Evaluating a trajectory into arrays of the caller

`aa_ct_seg_list_eval_q` and `aa_ct_seg_list_eval_dq` (src/ct/traj.cpp:231-248) evaluate with a
structure whose other pointers are `NULL`.  Here the structure holds pointers, and storing through a
`NULL` pointer or past the end of an array is the outcome `none`.
-/

namespace Verif.Ct

/-- `struct aa_ct_state`, include/amino/ct/state.h:52-70, the fields the evaluations use: `n` is
`n_q`, and every array not `NULL` has `n` elements. -/
structure StP where
  n : Nat
  q : Option (Nat → ℝ)
  dq : Option (Nat → ℝ)
  ddq : Option (Nat → ℝ)

/-- A segment evaluating into such a structure. -/
abbrev SegP := StP → ℝ → Option (Bool × StP)

/-- Storing `f i` to `a[i]` for `i < m`. -/
def wr (m : Nat) (f a : Nat → ℝ) : Nat → ℝ := fun i => if i < m then f i else a i

/-- The array holding a vector. -/
noncomputable def arr {k : Nat} (f : Fin k → ℝ) : Nat → ℝ := fun i => if h : i < k then f ⟨i, h⟩ else 0

open Classical in
/-- `aa_ct_seg_dq_eval`, src/ct/traj.cpp:349-376: null tests inside the interval, none outside. -/
noncomputable def SegDq.evalP {k : Nat} (c : SegDq k) : SegP := fun st t =>
  let m := min k st.n
  if c.t0 ≤ t ∧ t ≤ c.t1 then
    some (true, { st with
      q := st.q.map (wr m (arr fun i => c.q0 i + (t - c.t0) * c.dq i))
      dq := st.dq.map (wr m (arr c.dq)) })
  else match st.q with
    | some q => some (false, { st with q := some (wr m (arr fun i => c.q0 i + c.dq i * (c.t1 - c.t0)) q) })
    | none => if m = 0 then some (false, st) else none

open Classical in
/-- `aa_ct_seg_ddq_eval`, src/ct/traj.cpp:487-508: no null tests. -/
noncomputable def SegDdq.evalP {k : Nat} (c : SegDdq k) : SegP := fun st t =>
  let m := min k st.n
  if c.t0 ≤ t ∧ t ≤ c.t1 then
    match st.q, st.dq with
    | some q, some dq => some (true, { st with
        q := some (wr m (arr fun i => c.q0 i + (t - c.t0) * c.dq0 i
          - (t - c.t0) * (t - c.t0) * c.ddq i / 2) q)
        dq := some (wr m (arr fun i => c.dq0 i - (t - c.t0) * c.ddq i) dq) })
    | _, _ => if m = 0 then some (true, st) else none
  else some (false, st)

/-- The stores of `aa_ct_tj_pb_eval`, src/ct/traj.cpp:733-740 and 745-749: all `k` joints of the
segment, whatever the length of the arrays. -/
noncomputable def pbStore {k : Nat} (q dq ddq : Fin k → ℝ) (st : StP) : Option (Bool × StP) :=
  match st.q, st.dq, st.ddq with
  | some a, some b, some c =>
    if k ≤ st.n then
      some (true, { st with q := some (wr k (arr q) a), dq := some (wr k (arr dq) b),
                            ddq := some (wr k (arr ddq) c) })
    else none
  | _, _, _ => if k = 0 then some (true, st) else none

open Classical in
/-- `aa_ct_tj_pb_eval`, src/ct/traj.cpp:724-757. -/
noncomputable def pbEvalP {k : Nat} (p : Option (Pb k)) (c : Pb k) (nx : Option (Pb k)) : SegP :=
  fun st t =>
    let r := (pbEval p c nx ⟨fun _ => 0, fun _ => 0, fun _ => 0⟩ t)
    if r.1 = true then pbStore r.2.q r.2.dq r.2.ddq st else some (false, st)

/-- The loop of `aa_ct_seg_list_eval`, src/ct/traj.cpp:215-227. -/
def evalFromP : List SegP → Nat → StP → ℝ → Option (Bool × StP × Option Nat)
  | [], _, st, _ => some (false, st, none)
  | s :: rest, i, st, t => do
    let r ← s st t
    if r.1 then some (true, r.2, some i)
    else match rest with
      | [] => some (false, r.2, none)
      | _ :: _ => evalFromP rest (i + 1) r.2 t

open Classical in
/-- `aa_ct_seg_list_eval`, src/ct/traj.cpp:206-228. -/
noncomputable def listEvalP (segs : List SegP) (it : Option Nat) (st : StP) (t : ℝ) :
    Option (Bool × StP × Option Nat) :=
  if segs = [] then none else evalFromP (segs.drop (it.getD 0)) (it.getD 0) st t

/-- `aa_ct_seg_list_eval_q`, src/ct/traj.cpp:231-238. -/
noncomputable def evalQ (segs : List SegP) (it : Option Nat) (t : ℝ) (n : Nat) (q : Nat → ℝ) :
    Option (Bool × StP × Option Nat) :=
  listEvalP segs it ⟨n, some q, none, none⟩ t

/-- `aa_ct_seg_list_eval_dq`, src/ct/traj.cpp:240-248. -/
noncomputable def evalDq (segs : List SegP) (it : Option Nat) (t : ℝ) (n : Nat) (q dq : Nat → ℝ) :
    Option (Bool × StP × Option Nat) :=
  listEvalP segs it ⟨n, some q, some dq, none⟩ t

/-- The segments of `aa_ct_tjq_lin_generate`, `aa_ct_tjq_trap_generate`, `aa_ct_tjq_pb_generate`. -/
noncomputable def linP {k : Nat} (l : List (SegDq k)) : List SegP := l.map SegDq.evalP
/-- src/ct/traj.cpp:673-675. -/
noncomputable def trapP {k : Nat} (l : List (Trap k)) : List SegP :=
  l.flatMap fun s => [s.acc.evalP, s.con.evalP, s.dec.evalP]
/-- src/ct/traj.cpp:861-864. -/
noncomputable def pbP {k : Nat} : Option (Pb k) → List (Pb k) → List SegP
  | _, [] => []
  | p, c :: cs => pbEvalP p c cs.head? :: pbP (some c) cs

end Verif.Ct

namespace Verif.Ct

/-- The segments as nodes of a list: `aa_ct_tjq_pb_generate` adds them in turn,
src/ct/traj.cpp:861-864. -/
def pbNodes {k : Nat} (d : Pb k) (cs : List (Pb k)) : PList (Pb k) := cs.foldl PList.add (PList.empty d)

/-- Following a link to a context, src/ct/traj.cpp:710-718 (`aa_ct_tj_pb_nbrs`): `none` when the link
is indeterminate, `some none` when it is `NULL`. -/
def linkCx {k : Nat} (l : PList (Pb k)) : Link → Option (Option (Pb k))
  | .indet => none
  | .null => some none
  | .node j => some (some (l.val j))

/-- `aa_ct_tj_pb_eval` on node `j` of a list, src/ct/traj.cpp:724-757. -/
noncomputable def pbEvalNode {k : Nat} (l : PList (Pb k)) (j : Nat) (st : St k) (t : ℝ) :
    Option (Bool × St k) := do
  let p ← linkCx l (l.prev j)
  let nx ← linkCx l (l.next j)
  some (pbEval p (l.val j) nx st t)

end Verif.Ct
