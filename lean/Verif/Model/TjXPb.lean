import Verif.Model.Traj
import Verif.Model.TfCheck

/-!
# Blended workspace trajectories (src/ct/traj.cpp:932-1012)

Exact arithmetic.  `none` is undefined behaviour (a null pointer, `front()` of an empty list), a
division by zero, or a generator that has not finished within the given number of rounds.
-/

namespace Verif.TjXPb

open Verif.Tf Verif.Ct

noncomputable section

/-- src/ct/traj.cpp:974-987: the six numbers of a pose, the translation and the rotation vector. -/
def vec6 (E : Nat → ℝ) (r : V3) : Nat → ℝ
  | 0 => E 4
  | 1 => E 5
  | 2 => E 6
  | 3 => r.x
  | 4 => r.y
  | 5 => r.z
  | _ => 0

/-- The rotation vector for a pose, given the point that was added before. -/
def rotOf (E : Nat → ℝ) (last : Option CtState) : Option V3 :=
  let q : Quat := ⟨E 0, E 1, E 2, E 3⟩
  match last with
  | none => quat2rotvec q
  | some p =>
    match p.q with
    | none => none
    | some v => some (quat2rotvecNear q ⟨v 3, v 4, v 5⟩)

/-- src/ct/traj.cpp:965-990: the loop over the points; the list of vectors. -/
def xLoop (l : PList CtState) : List CtState → Option (PList CtState)
  | [] => some l
  | s :: ss =>
    match s.X with
    | none => none
    | some E =>
      match rotOf E (l.list.getLast?.map l.val) with
      | none => none
      | some r =>
        xLoop (ptAdd l (CtState.mk 6 0 (some (vec6 E r)) none none none none none none none none)) ss

/-- The positions of the points of a list. -/
def points (l : PList CtState) : List (Fin 6 → ℝ) :=
  l.list.map (fun k i => ((l.val k).q.getD (fun _ => 0)) i)

/-- src/ct/traj.cpp:959-1012 `aa_ct_tjX_pb_generate`; `L` are the limits of `dX` and `ddX`. -/
def xGenerate (L : Limits 6) (fuel : Nat) (d : CtState) (pts : List CtState) :
    Option (List (Pb 6) × ℝ) :=
  match pts with
  | [] => none
  | _ :: _ =>
    match xLoop (PList.empty d) pts with
    | none => none
    | some l => pbGenerate L fuel (points l)

/-- The arrays `X`, `dX` and `ddX` of a state. -/
structure StX where
  X : Qutr
  dX : Fin 6 → ℝ
  ddX : Fin 6 → ℝ

/-- `seg->eval` for such states. -/
abbrev SegX := StX → ℝ → Bool × StX

/-- src/ct/traj.cpp:932-957 `aa_ct_tjX_pb_eval`; `junk` are the contents of the local arrays. -/
def pbEvalX (junk : St 6) (p : Option (Pb 6)) (c : Pb 6) (nx : Option (Pb 6)) : SegX :=
  fun st t =>
    let r := pbEval p c nx junk t
    if r.1 then
      (true, { st with X := ⟨rotvec2quat ⟨r.2.q 3, r.2.q 4, r.2.q 5⟩, ⟨r.2.q 0, r.2.q 1, r.2.q 2⟩⟩ })
    else (false, st)

/-- The segments with their neighbours (src/ct/traj.cpp:1006-1009). -/
def pbSegsX (junk : St 6) : Option (Pb 6) → List (Pb 6) → List SegX
  | _, [] => []
  | p, c :: cs => pbEvalX junk p c cs.head? :: pbSegsX junk (some c) cs

/-- The loop of `aa_ct_seg_list_eval`, src/ct/traj.cpp:215-227. -/
def evalFromX : List SegX → Nat → StX → ℝ → Bool × StX × Option Nat
  | [], _, st, _ => (false, st, none)
  | s :: rest, i, st, t =>
    let r := s st t
    if r.1 then (true, r.2, some i)
    else match rest with
      | [] => (false, r.2, none)
      | _ :: _ => evalFromX rest (i + 1) r.2 t

/-- `aa_ct_seg_list_eval`, src/ct/traj.cpp:206-228. -/
def listEvalX (segs : List SegX) (it : Option Nat) (st : StX) (t : ℝ) :
    Option (Bool × StX × Option Nat) :=
  if segs = [] then none
  else some (evalFromX (segs.drop (it.getD 0)) (it.getD 0) st t)

end

end Verif.TjXPb
