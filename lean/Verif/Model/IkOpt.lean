import Verif.Model.Ik
import Verif.Model.TfPde
import Verif.Model.SgLimUse

/-!
# Model: error functions for the optimizing inverse kinematics (src/rx/ik_nlopt.c)

Each function returns the error and the gradient array; `none` is undefined behaviour or an abort.
The gradient has one element per column of the Jacobian.  The member `fk` of the context starts from
`fk0` in every call (`Verif.Ik.fkSub_again`).
-/

namespace Verif.Ik

open Verif.Tf Verif.Sg

/-! ## Helpers -/

/-- Transposed matrix times vector (`cblas_dgemv` with `CblasTrans` on a 4x4 array). -/
def mul4T (J : Fin 4 → Fin 4 → ℝ) (x : Quat) : Quat :=
  let r := fun j => J 0 j * x.x + J 1 j * x.y + J 2 j * x.z + J 3 j * x.w
  ⟨r 0, r 1, r 2, r 3⟩

/-- The same for a matrix given by columns. -/
def mulVecT (M : M4) (x : Quat) : Quat := ⟨qdot M.c0 x, qdot M.c1 x, qdot M.c2 x, qdot M.c3 x⟩

/-- src/rx/ik_nlopt.c:403-410 `q_rmul_helper`. -/
def qRmul (q x : Quat) : Quat := mulVecT (qmatrixR q) x

/-- src/rx/ik_nlopt.c:120-129 `mv_block_helper` on the array `aa_tf_duqu_ln_jac` fills: the first
product uses the four columns on the left, the second one the block at the top left. -/
def mvBlockJ (J : Jac8) (x : Duqu) : Duqu :=
  ⟨qadd (mul4T J.rr x.real) (mul4T J.dr x.dual), mul4T J.rr x.dual⟩

/-- src/rx/ik_nlopt.c:131-137 `duqu_rmul_helper`, with `aa_tf_duqu_matrix_r`
(src/tf/quat_duqu.c:58-68): the blocks at the left are the matrices of the real and dual part. -/
def duquRmul (S x : Duqu) : Duqu :=
  ⟨qadd (mulVecT (qmatrixR S.real) x.real) (mulVecT (qmatrixR S.dual) x.dual),
    mulVecT (qmatrixR S.real) x.dual⟩

def qneg (q : Quat) : Quat := ⟨q.x * -1, q.y * -1, q.z * -1, q.w * -1⟩

/-- The difference of the translations, ik_nlopt.c:380 and 447. -/
def transErr (E R : Qutr) : V3 := ⟨E.v.x - R.v.x, E.v.y - R.v.y, E.v.z - R.v.z⟩

/-! ## Rotational parts of the gradients -/

/-- src/rx/ik_nlopt.c:435-445, 449 and 465-492: the squared length of the logarithm of the relative
orientation and the vector `a` multiplied with the rotational Jacobian. -/
noncomputable def rotErr (q_act q_ref : Quat) : Option (ℝ × V3) :=
  let q := qcmul q_act q_ref
  let e := if q.w < 0 then qneg q else q
  match qln e with
  | none => none
  | some l =>
    match qlnJac e with
    | none => none
    | some J =>
      let l' := if q.w < 0 then qneg l else l
      let b := qconj (qRmul q_ref (mul4T J l'))
      some (qdot l l, (qRmul q_act b).vec)

/-- src/rx/ik_nlopt.c:151-223: the squared length of the logarithm of the relative dual quaternion
and the vector `c` multiplied with the twist Jacobian (rotational part first). -/
noncomputable def duquErr (S_act S_ref : Duqu) : Option (ℝ × JCol) :=
  let S := duquCmul S_act S_ref
  let e : Duqu := if S.real.w < 0 then ⟨qneg S.real, qneg S.dual⟩ else S
  match duquLn e with
  | none => none
  | some l =>
    match duquLnJac e with
    | none => none
    | some J =>
      let l' : Duqu := if S.real.w < 0 then ⟨qneg l.real, qneg l.dual⟩ else l
      let b := duquConj (duquRmul S_ref (mvBlockJ J l'))
      let a := duquRmul S_act b
      some (qdot l.real l.real + qdot l.dual l.dual, ⟨a.real.vec, a.dual.vec⟩)

/-! ## The error functions -/

/-- The pose of the frame and the columns after `aa_rx_fk_sub`. -/
noncomputable def optPose (g : Graph Body) (s : Sub) (fk0 : List Qutr) (junk : Nat → ℝ) (frame : Int)
    (q : Nat → ℝ) : Option (List Qutr × Qutr) :=
  match fkSub g s junk q fk0 with
  | none => none
  | some fk =>
    match parentCol fk frame with
    | none => none
    | some E => some (fk, E)

/-- src/rx/ik_nlopt.c:359-401 `aa_rx_ik_opt_err_trans`. -/
noncomputable def optTrans (g : Graph Body) (s : Sub) (fk0 : List Qutr) (junk : Nat → ℝ) (frame : Int)
    (R : Qutr) (q : Nat → ℝ) : Option (ℝ × List ℝ) :=
  match optPose g s fk0 junk frame q with
  | none => none
  | some (fk, E) =>
    let d := transErr E R
    (jacVel g s fk).map fun J => (vdot d d, J.map fun c => 2 * vdot c.p d)

/-- src/rx/ik_nlopt.c:413-517 `aa_rx_ik_opt_err_qlnpv`. -/
noncomputable def optQlnpv (g : Graph Body) (s : Sub) (fk0 : List Qutr) (junk : Nat → ℝ) (frame : Int)
    (R : Qutr) (q : Nat → ℝ) : Option (ℝ × List ℝ) :=
  match optPose g s fk0 junk frame q with
  | none => none
  | some (fk, E) =>
    let d := transErr E R
    match rotErr E.q R.q with
    | none => none
    | some (v, a) =>
      (jacVel g s fk).map fun J => (v + vdot d d, J.map fun c => vdot c.r a + 2 * vdot c.p d)

/-- src/rx/ik_nlopt.c:140-256 `aa_rx_ik_opt_err_dqln`. -/
noncomputable def optDqln (g : Graph Body) (s : Sub) (fk0 : List Qutr) (junk : Nat → ℝ) (frame : Int)
    (R : Qutr) (q : Nat → ℝ) : Option (ℝ × List ℝ) :=
  match optPose g s fk0 junk frame q with
  | none => none
  | some (fk, E) =>
    match duquErr (qutr2duqu E) (qutr2duqu R) with
    | none => none
    | some (v, a) =>
      (jacTwist g s fk).map fun J => (v, J.map fun c => vdot c.p a.p + vdot c.r a.r)

/-- src/rx/ik_nlopt.c:522-555 `aa_rx_ik_opt_err_jcenter`; `junk` is what the allocated vector
holds. -/
noncomputable def optJcenter (s : LGraph Body ℝ) (sub : Sub) (junk q : Nat → ℝ) :
    Option (ℝ × (Nat → ℝ)) :=
  (subCenter s sub sub.configCount 1 junk).map fun c =>
    ((∑ i ∈ Finset.range sub.configCount, (q i - c i) * (q i - c i)) / 2, fun i => q i - c i)

/-! ## Finite differences -/

/-- `aa_tf_duqu_ln` (src/tf/quat_duqu.c) on arrays of the given elements: it reads eight and writes
eight. -/
noncomputable def duquLnArr (src dst : List ℝ) : Option (List ℝ) :=
  match src with
  | a :: b :: c :: d :: e :: f :: g :: h :: _ =>
    if dst.length < 8 then none
    else (duquLn ⟨⟨a, b, c, d⟩, ⟨e, f, g, h⟩⟩).map fun l =>
      [l.real.x, l.real.y, l.real.z, l.real.w, l.dual.x, l.dual.y, l.dual.z, l.dual.w] ++ dst.drop 8
  | _ => none

/-- src/rx/ik_nlopt.c:303-336 `s_nlobj_qv_fd_helper`; `vErr` is what `E_err[4..6]` and `qLn` what
`q_ln` hold before. -/
noncomputable def qvFdHelper (g : Graph Body) (s : Sub) (fk0 : List Qutr) (junk : Nat → ℝ) (frame : Int)
    (R : Qutr) (vErr : V3) (qLn : Quat) (q : Nat → ℝ) : Option ℝ :=
  match optPose g s fk0 junk frame q with
  | none => none
  | some (_, E) =>
    let e := qminimize (qcmul E.q R.q)
    match duquLnArr [e.x, e.y, e.z, e.w, vErr.x, vErr.y, vErr.z] [qLn.x, qLn.y, qLn.z, qLn.w] with
    | some (a :: b :: c :: d :: _) =>
      let l : Quat := ⟨a, b, c, d⟩
      some (qdot l l + vdot (transErr E R) (transErr E R))
    | _ => none

end Verif.Ik
