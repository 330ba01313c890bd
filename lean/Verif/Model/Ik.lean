import Verif.Model.SgSub
import Verif.Model.Ode
import Verif.Model.TfVel
import Verif.Model.Scalar

/-!
# Model: inverse kinematics (src/rx/scene_ik.c, src/rx/ik_jacobian.c, src/rx/scene_wk.c)

A configuration vector is a function; only its first `n` elements are meant.  `none` is undefined
behaviour or an abort.
-/

namespace Verif.Ik

open Verif.Tf Verif.Sg

/-- src/rx/sg_api.cpp:938-953 `aa_rx_fk_set_rel`: the columns after the call. -/
noncomputable def fkSetRel (g : Graph Body) (abs : List Qutr) (id : Int) (r : Qutr) :
    Option (List Qutr) :=
  match frameParent g id with
  | none => none
  | some p =>
    if p = frameRoot then some (abs.set id.toNat r)
    else
      match parentCol abs p with
      | none => none
      | some E => some (abs.set id.toNat (qutrMul E r))

/-- src/rx/scene_sub.cpp:93-99: the loop of `aa_rx_fk_sub`, `n` frames left from index `i`. -/
noncomputable def fkSubLoop (g : Graph Body) (q : Nat → ℝ) (frames : Nat → Int) :
    Nat → Nat → List Qutr → Option (List Qutr)
  | 0, _, abs => some abs
  | n + 1, i, abs =>
    match entry g (frames i) with
    | none => none
    | some e =>
      match entryRel q e with
      | none => none
      | some r =>
        match fkSetRel g abs (frames i) r with
        | none => none
        | some abs => fkSubLoop g q frames n (i + 1) abs

/-- src/rx/scene_sub.cpp:80-101 `aa_rx_fk_sub`: `junk` is what the array `q_all` on the stack holds
before the configuration is scattered into it. -/
noncomputable def fkSub (g : Graph Body) (s : Sub) (junk : Nat → ℝ) (q : Nat → ℝ)
    (abs : List Qutr) : Option (List Qutr) :=
  match scatterLoop s q 1 1 s.configCount 0 junk with
  | none => none
  | some qAll => fkSubLoop g qAll s.frames s.frameCount 0 abs

/-- src/rx/scene_ik.c:344-361 `s_err2`: angle and distance. -/
noncomputable def err2 (Eact Eref : Qutr) : ℝ × ℝ :=
  let E := qutrCmul Eact Eref
  (qangle (qminimize E.q), vnorm E.v)

/-- include/amino/rx/scene_ik_internal.h:118-160 `struct aa_rx_ik_parm` with its `wk_opts`: the
members used by the Jacobian solver. -/
structure Parm where
  tolAngle : ℝ
  tolTrans : ℝ
  tolDq : ℝ
  dt : ℝ
  maxIter : Nat
  gainAngle : ℝ
  gainTrans : ℝ
  qRef : Option (Nat → ℝ)
  dqDt : Nat → ℝ

/-- src/rx/sg_api.cpp:580-598 `aa_rx_sg_get_limit_pos` for each configuration number. -/
abbrev Limits := Nat → Option (ℝ × ℝ)

/-- src/rx/ik_jacobian.c:81-88: clamping element `i`. -/
noncomputable def clampAt (s : Sub) (lim : Limits) (x : Nat → ℝ) (i : Nat) : ℝ :=
  match cidx s i with
  | none => x i
  | some c =>
    match lim c with
    | none => x i
    | some (lo, hi) => Scalar.fclamp (x i) lo hi

/-- src/rx/ik_jacobian.c:81-88: the loop. -/
noncomputable def clampAll (s : Sub) (lim : Limits) (x : Nat → ℝ) : Nat → ℝ :=
  fun i => if i < s.configCount then clampAt s lim x i else x i

/-- `aa_la_dot` of the first `n` elements with themselves. -/
def sqNorm (n : Nat) (y : Nat → ℝ) : ℝ := ∑ i ∈ Finset.range n, y i * y i

/-- `aa_la_ssd` of the first `n` elements. -/
def ssd (n : Nat) (x y : Nat → ℝ) : ℝ := ∑ i ∈ Finset.range n, (x i - y i) * (x i - y i)

open Classical in
/-- src/rx/ik_jacobian.c:73-110 `kin_solve_check`.  The context is the member `iteration`, or `none`
after undefined behaviour.  The member `fk` starts from `fk0` in every call: what earlier calls left
in it does not matter (`Verif.Ik.fkSub_again`). -/
noncomputable def kinCheck (g : Graph Body) (s : Sub) (lim : Limits) (p : Parm) (fk0 : List Qutr)
    (junk : Nat → ℝ) (frame : Int) (Eref : Qutr) : Ode.Check (Option Nat) (Nat → ℝ) :=
  fun cx _ x y =>
    match cx with
    | none => (-1, x, y, none)
    | some it =>
      let x := clampAll s lim x
      match fkSub g s junk x fk0 with
      | none => (-1, x, y, none)
      | some fk =>
        match parentCol fk frame with
        | none => (-1, x, y, none)
        | some E =>
          let e := err2 E Eref
          let it := it + 1
          if e.1 < p.tolAngle ∧ e.2 < p.tolTrans ∧ sqNorm s.configCount y < p.tolDq then
            (1, x, y, some it)
          else if it > p.maxIter then (-1, x, y, some it)
          else (0, x, y, some it)

open Classical in
/-- src/rx/scene_ik.c:363-407 `s_check`, `aa_rx_ik_check`: `mem` is what the columns of the newly
allocated `struct aa_rx_fk` hold (`aa_rx_fk_alloc`, src/rx/sg_api.cpp:859-867, writes none of them),
`junk` is as for `fkSub`.  3 is `AA_RX_NO_SOLUTION|AA_RX_NO_IK`.  The vector `q_all`, which is made
from `q_start` and `q_sub`, is not used by the code. -/
noncomputable def ikCheck (g : Graph Body) (s : Sub) (p : Parm) (mem : List Qutr) (junk : Nat → ℝ)
    (frame : Int) (Eref : Qutr) (q : Nat → ℝ) : Option Int :=
  match fkSub g s junk q mem with
  | none => none
  | some fk =>
    match parentCol fk frame with
    | none => none
    | some E =>
      let e := err2 E Eref
      some (if e.1 < p.tolAngle ∧ e.2 < p.tolTrans then 0 else 3)

/-- src/rx/scene_wk.c:168-195 `aa_rx_wk_dx_pos` from a zero velocity. -/
noncomputable def wkDxPos (p : Parm) (Eact Eref : Qutr) : Option Dx :=
  let Ee := qutrMulc Eact Eref
  (qutrLnv ⟨qminimize Ee.q, Ee.v⟩).map fun w =>
    let vel := twist2vel Eact.v w
    ⟨⟨0 - p.gainTrans * vel.v.x, 0 - p.gainTrans * vel.v.y, 0 - p.gainTrans * vel.v.z⟩,
     ⟨0 - p.gainAngle * vel.w.x, 0 - p.gainAngle * vel.w.y, 0 - p.gainAngle * vel.w.z⟩⟩

/-- Product of row `i` of a matrix of six columns with a velocity (translation first). -/
def row6 (J : Nat → Nat → ℝ) (i : Nat) (d : Dx) : ℝ :=
  J i 0 * d.v.x + J i 1 * d.v.y + J i 2 * d.v.z + J i 3 * d.w.x + J i 4 * d.w.y + J i 5 * d.w.z

/-- src/rx/scene_ik.c:410-436 `s_ksol_jpinv`, src/rx/scene_wk.c:78-142 `aa_rx_wk_dx2dq`,
`aa_rx_wk_dx2dq_np`: `Jstar` and `N` are the pseudo-inverse of the Jacobian and the null space
projection, as functions of the absolute transforms. -/
noncomputable def kinSys (g : Graph Body) (s : Sub) (p : Parm) (fk0 : List Qutr) (junk : Nat → ℝ)
    (frame : Int) (Eref : Qutr) (Jstar N : List Qutr → Nat → Nat → ℝ) (q : Nat → ℝ) :
    Option (Nat → ℝ) :=
  match fkSub g s junk q fk0 with
  | none => none
  | some fk =>
    match parentCol fk frame with
    | none => none
    | some E =>
      (wkDxPos p E Eref).map fun w =>
        match p.qRef with
        | none => fun i => row6 (Jstar fk) i w
        | some qr =>
          let dqn : Nat → ℝ := fun j => - p.dqDt j * (q j - qr j)
          fun i => row6 (Jstar fk) i w - ∑ j ∈ Finset.range s.configCount, N fk i j * dqn j

/-- include/amino/rx/rxerr.h: `AA_RX_NO_SOLUTION | AA_RX_NO_IK` and `AA_RX_INVALID_PARAMETER`. -/
def errNoIk : Int := 3
def errParm : Int := 16

/-- src/rx/ik_jacobian.c:119-163 `s_ik_jpinv`: the result, the solution and the new value of
`iteration`; `f` is `kin_solve_sys`, `fuel` bounds the number of integrator steps. -/
noncomputable def ikJpinv (s : Sub) (p : Parm) (f : (Nat → ℝ) → (Nat → ℝ))
    (check : Ode.Check (Option Nat) (Nat → ℝ)) (fuel : Nat) (it : Nat) (qSub : Nat → ℝ) :
    Option (Int × (Nat → ℝ) × Nat) :=
  match Ode.odeSol .rk23bs (ssd s.configCount) ⟨p.tolDq / 16, p.tolDq / 2, 1 / 10, 2⟩ (fun _ => f)
      check fuel 0 p.dt qSub (some it) with
  | none => none
  | some r =>
    match r.cx with
    | none => none
    | some it => some (if r.ret ≠ 0 then errNoIk else 0, r.x1, it)

/-- src/rx/scene_ik.c:253-289: the loop of `aa_rx_ik_solve`.  `seeds` are the random configurations
of the restarts for which there is time left. -/
noncomputable def ikLoop (solve : Nat → (Nat → ℝ) → Option (Int × (Nat → ℝ) × Nat)) :
    List (Nat → ℝ) → Nat → (Nat → ℝ) → Option (Int × (Nat → ℝ))
  | [], it, q => (solve it q).map fun r => (r.1, r.2.1)
  | x :: xs, it, q =>
    match solve it q with
    | none => none
    | some (r, q, it) => if r ≠ 0 then ikLoop solve xs it x else some (r, q)

/-- src/rx/scene_ik.c:219-298 `aa_rx_ik_solve` with the Jacobian solver: the result and the contents
of `q`.  `q` has `qLen` elements, `TF` is `rows × cols` and its first column is `Eref`. -/
noncomputable def ikSolve (g : Graph Body) (s : Sub) (lim : Limits) (p : Parm) (fk0 : List Qutr)
    (junk : Nat → ℝ) (frame : Int) (f : (Nat → ℝ) → (Nat → ℝ)) (fuel : Nat) (rows cols : Nat)
    (Eref : Qutr) (qLen : Nat) (seed : Nat → ℝ) (seeds : List (Nat → ℝ)) (q : Nat → ℝ) :
    Option (Int × (Nat → ℝ)) :=
  if s.configCount ≠ qLen ∨ rows ≠ 7 then some (errParm, q)
  else if cols ≠ 1 then some (errParm, q)
  else ikLoop (ikJpinv s p f (kinCheck g s lim p fk0 junk frame Eref) fuel) seeds 0 seed

end Verif.Ik
