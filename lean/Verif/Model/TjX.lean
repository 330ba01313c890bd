import Verif.Model.Traj
import Verif.Model.TfExp
import Verif.Model.Mat

/-!
# Interpolated workspace trajectories (src/ct/traj.cpp:1113-1197)

Exact arithmetic; a logarithm that divides by zero is `none`. The arrays of the state that is
filled in are pointers into the memory of `Verif.Model.Mat`, one cell for each `double`; the
way points are values, they are not written after the trajectory is made.
-/

namespace Verif.TjX

open Verif.Tf Verif.Ct Verif.Mat

noncomputable section

/-- src/ct/traj.cpp:130-137 `aa_ct_pt_list_add_qutr`; `E` are the seven numbers. -/
def addQutr (l : PList CtState) (E : Nat → ℝ) : PList CtState :=
  ptAdd l (CtState.mk 0 0 none none none none (some E) none none none none)

/-- the pose in an array of seven numbers (include/amino/tf/type.h:323-337). -/
def qutrOf (E : Nat → ℝ) : Qutr := ⟨⟨E 0, E 1, E 2, E 3⟩, ⟨E 4, E 5, E 6⟩⟩

/-- the seven numbers of a pose. -/
def qutrArr (E : Qutr) : List ℝ := [E.q.x, E.q.y, E.q.z, E.q.w, E.v.x, E.v.y, E.v.z]

/-- src/ct/traj.cpp:1122-1127 `struct aa_ct_slerp_seg`. -/
structure SlerpSeg where
  E0 : Qutr
  E1 : Qutr
  dv : V3
  dw : V3
  dt : ℝ

/-- src/ct/traj.cpp:1166-1189: the segment between two poses. -/
def slerpSeg (E0 E1 : Qutr) : Option SlerpSeg :=
  let dt := 1
  (qln (qminimize (qmulc E1.q E0.q))).map fun ql =>
    { E0 := E0, E1 := E1, dt := dt
      dw := ⟨2 * ql.x / dt, 2 * ql.y / dt, 2 * ql.z / dt⟩
      dv := ⟨(E1.v.x - E0.v.x) / dt, (E1.v.y - E0.v.y) / dt, (E1.v.z - E0.v.z) / dt⟩ }

/-- src/ct/traj.cpp:1158-1197 `aa_ct_tjx_slerp_generate`: the only segment and the duration.
`none` is undefined behaviour, `some none` the null pointer. -/
def slerpGenerate (l : PList CtState) : Option (Option (SlerpSeg × ℝ)) :=
  match l.list with
  | [a, b] =>
    match (l.val a).X, (l.val b).X with
    | some A, some B => (slerpSeg (qutrOf A) (qutrOf B)).map fun s => some (s, 1)
    | _, _ => none
  | _ => some none

/-- the arrays of a state that such a segment writes. -/
structure Ptrs where
  X : Option Nat
  dX : Option Nat
  ddX : Option Nat
  eff : Option Nat

/-- `n` doubles rounded up to the alignment of regions, 16 bytes. -/
def up (n : Nat) : Nat := 2 * ((n + 1) / 2)

/-- src/ct/state.c:45-70 `aa_ct_state_alloc`: the arrays are allocated one after the other, `q`,
`dq`, `ddq`, `eff`, `X`, `dX`, `ddX`; here from a region whose chunk has room for them, with the
first at `base`. -/
def stateAlloc (base nq : Nat) : Ptrs where
  eff := some (base + 3 * up nq)
  X := some (base + 4 * up nq)
  dX := some (base + 4 * up nq + up 7)
  ddX := some (base + 4 * up nq + up 7 + up 6)

/-- copying numbers to an array, or nothing to the null pointer. -/
def wr (p : Option Nat) (l : List ℝ) (m : Mem ℝ) : Mem ℝ :=
  match p with
  | none => m
  | some a => fun j => if a ≤ j ∧ j < a + l.length then l.getD (j - a) 0 else m j

/-- six zeros. -/
def zero6 : List ℝ := [0, 0, 0, 0, 0, 0]

/-- src/la.c:413-421 `aa_la_linterp` with times 0 and 1, of vectors. -/
def linterp3 (a b : V3) (t : ℝ) : V3 :=
  let u := (t - 0) / (1 - 0)
  ⟨a.x + u * (b.x - a.x), a.y + u * (b.y - a.y), a.z + u * (b.z - a.z)⟩

/-- src/ct/traj.cpp:1129-1156 `aa_ct_seg_slerp_eval`: result and memory. -/
def slerpSegEval (c : SlerpSeg) (st : Ptrs) (t : ℝ) (m : Mem ℝ) : Int × Mem ℝ :=
  let m :=
    if t ≤ 0 then wr st.dX zero6 (wr st.X (qutrArr c.E0) m)
    else if t ≥ c.dt then wr st.dX zero6 (wr st.X (qutrArr c.E1) m)
    else wr st.dX [c.dv.x, c.dv.y, c.dv.z, c.dw.x, c.dw.y, c.dw.z]
      (wr st.X (qutrArr ⟨qslerp t c.E0.q c.E1.q, linterp3 c.E0.v c.E1.v t⟩) m)
  let m := wr st.ddX zero6 m
  let m := wr st.eff zero6 m
  (0, m)

/-- src/ct/traj.cpp:208-229 `aa_ct_seg_list_eval` for a list of this one segment. -/
def slerpEval (c : SlerpSeg) (st : Ptrs) (t : ℝ) (m : Mem ℝ) : Int × Mem ℝ :=
  let r := slerpSegEval c st t m
  if r.1 ≠ 0 then r else (0, r.2)

end

end Verif.TjX
