import Verif.Model.Ik
import Verif.Model.SgLimUse
import Verif.Model.Traj

/-!
# Model: joint paths of workspace trajectories (src/rx/rx_ct.c)

A configuration is a function; only its first `configCount` elements are meant.  `none` is undefined
behaviour or a run of more than `fuel` steps.  The system `path_sys` that is integrated is a function
`f` of the time and the configuration.
-/

namespace Verif.Ik

open Verif.Tf Verif.Sg

open Classical in
/-- src/rx/rx_ct.c:176-182 `path_check`: `dur` is the duration of the segment list. -/
noncomputable def tjxCheck (dur : ℝ) : Ode.Check Unit (Nat → ℝ) := fun _ t x y =>
  (if dur ≤ t then 1 else 0, x, y, ())

/-- src/rx/rx_ct.c:292-313 `aa_rx_ct_sg_limits`: the position limits of a configuration; without a
limit the elements stay zero (see `Verif.Sg.ctSgLimits`). -/
noncomputable def tjxLim (lim : Limits) (c : Nat) : ℝ × ℝ := (lim c).getD (0, 0)

/-- src/rx/rx_ct.c:184-289 `aa_rx_ct_tjx_path`: the return value and the points.  `start` is `none` for
a null pointer; `sub0` is what the new array for the chain's start holds.  16 is
`AA_RX_INVALID_PARAMETER`, which leaves the outputs unwritten.  The points are assumed to be in a
region other than the thread's local region, which the last line pops. -/
noncomputable def tjxPath (s : Sub) (lim : Limits) (tolDq dt : ℝ) (f : ℝ → (Nat → ℝ) → (Nat → ℝ))
    (dur : ℝ) (fuel : Nat) (nAll : Nat) (start : Option (Nat → ℝ)) (sub0 : Nat → ℝ) :
    Option (Int × Option (List (Nat → ℝ))) :=
  if nAll = 0 then some (errParm, none)
  else
    match start with
    | none => some (errParm, none)
    | some qStart =>
      match configGet s qStart s.configCount 0 sub0 with
      | none => none
      | some q0 =>
        (Ode.odePath .rk4 (ssd s.configCount) ⟨tolDq / 16, tolDq / 2, 1 / 10, 2⟩ f (tjxCheck dur) fuel
          0 dt q0 ()).map fun r =>
          (r.1, some (r.2.1.map (clampAll s fun c => some (tjxLim lim c))))

end Verif.Ik

namespace Verif.Ct

/-- src/rx/rx_ct.c:63-70: the state made for the point at offset `i`. -/
def pathState (nq : Nat) (path : Nat → ℝ) (i : Nat) : CtState :=
  ⟨nq, 0, some fun j => path (i + j), none, none, none, none, none, none, none, none⟩

/-- src/rx/rx_ct.c:63-71: the loop, at most `fuel` turns from offset `i`. -/
noncomputable def ptListLoop (nq nPath : Nat) (path : Nat → ℝ) :
    Nat → Nat → PList CtState → PList CtState
  | 0, _, l => l
  | fuel + 1, i, l =>
    if i < nq * nPath then ptListLoop nq nPath path fuel (i + nq) (ptAdd l (pathState nq path i)) else l

/-- src/rx/rx_ct.c:56-74 `aa_rx_ct_pt_list`. -/
noncomputable def rxPtList (d : CtState) (nq nPath : Nat) (path : Nat → ℝ) : PList CtState :=
  ptListLoop nq nPath path (nPath + 1) 0 (PList.empty d)

end Verif.Ct
