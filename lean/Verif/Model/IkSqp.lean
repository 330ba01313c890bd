import Verif.Model.Ik

/-!
# Model: inverse kinematics by sequential quadratic programming (src/rx/ik_nlopt.c)

NLopt is a function `opt`: from the number of the attempt, the bounds and the start it gives the
contents of the vector after `nlopt_optimize`.  Nothing is assumed about it here.
-/

namespace Verif.Ik

open Verif.Tf Verif.Sg

/-- src/rx/ik_nlopt.c:613-621: the bounds of element `i`; `big` is `DBL_MAX`. -/
noncomputable def sqpBounds (s : Sub) (lim : Limits) (big : ℝ) (i : Nat) : ℝ × ℝ :=
  match cidx s i with
  | none => (-big, big)
  | some c =>
    match lim c with
    | none => (-big, big)
    | some (lo, hi) => (lo, hi)

open Classical in
/-- src/rx/scene_ik.c:364-387 `s_check`. -/
noncomputable def sCheck (p : Parm) (Eref E : Qutr) : Int :=
  let e := err2 E Eref
  if e.1 < p.tolAngle ∧ e.2 < p.tolTrans then 0 else errNoIk

/-- src/rx/ik_nlopt.c:570-644 `s_ik_nlopt`: the result, the solution and the number of attempts.
The test of the increments is left out: both vectors come from `aa_dvec_dup`, which makes them 1.
The member `fk` starts from `fk0` in every call: what the objective functions left in it does not
matter (`Verif.Ik.fkSub_again`). -/
noncomputable def ikNlopt (g : Graph Body) (s : Sub) (lim : Limits) (p : Parm) (fk0 : List Qutr)
    (junk : Nat → ℝ) (frame : Int) (Eref : Qutr) (big : ℝ)
    (opt : Nat → (Nat → ℝ × ℝ) → (Nat → ℝ) → (Nat → ℝ)) (it : Nat) (qSub : Nat → ℝ) :
    Option (Int × (Nat → ℝ) × Nat) :=
  let q := opt it (sqpBounds s lim big) qSub
  match fkSub g s junk q fk0 with
  | none => none
  | some fk =>
    match parentCol fk frame with
    | none => none
    | some E => some (sCheck p Eref E, q, it + 1)

/-- include/amino/rx/scene_ik.h:69-88 `enum aa_rx_ik_algo`. -/
inductive Algo where
  | jpinv
  | lma
  | sqp
  deriving DecidableEq

/-- src/rx/scene_ik.c:219-298 `aa_rx_ik_solve`, built with NLopt, for every algorithm (the parameters
of the one that is not chosen are not used). -/
noncomputable def ikSolveAlgo (a : Algo) (g : Graph Body) (s : Sub) (lim : Limits) (p : Parm)
    (fk0 : List Qutr) (junk : Nat → ℝ) (frame : Int) (f : (Nat → ℝ) → (Nat → ℝ)) (fuel : Nat)
    (big : ℝ) (opt : Nat → (Nat → ℝ × ℝ) → (Nat → ℝ) → (Nat → ℝ)) (rows cols : Nat)
    (Eref : Qutr) (qLen : Nat) (seed : Nat → ℝ) (seeds : List (Nat → ℝ)) (q : Nat → ℝ) :
    Option (Int × (Nat → ℝ)) :=
  match a with
  | .jpinv => ikSolve g s lim p fk0 junk frame f fuel rows cols Eref qLen seed seeds q
  | .lma =>
    if s.configCount ≠ qLen ∨ rows ≠ 7 then some (errParm, q)
    else if cols ≠ 1 then some (errParm, q)
    else some (errNoIk + errParm, q)
  | .sqp =>
    if s.configCount ≠ qLen ∨ rows ≠ 7 then some (errParm, q)
    else if cols ≠ 1 then some (errParm, q)
    else ikLoop (ikNlopt g s lim p fk0 junk frame Eref big opt) seeds 0 seed

end Verif.Ik
