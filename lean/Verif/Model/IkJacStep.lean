import Verif.Model.Pinv
import Verif.Model.Wk

/-!
# Joint velocities from workspace velocities (src/rx/ik_jacobian.c)

Over the reals. The variable length arrays are passed as addresses; `none` stands for an array of
length zero, for a null pointer that is read and for a division by zero in the logarithm.
-/

namespace Verif.IkJacStep

open Verif.Mat Verif.La Verif.Pinv Verif.Tf

/-- What is used of `struct aa_rx_ik_parm` (include/amino/rx/scene_ik_internal.h): `wk_opts.s2min`,
`wk_opts.gain_trans`, `wk_opts.gain_angle`, and the addresses in `q_ref` and `dq_dt`, which may be
null. -/
structure Parm where
  s2min : ℝ
  gt : ℝ
  ga : ℝ
  qref : Option Nat
  dqdt : Option Nat

/-- src/rx/ik_jacobian.c:233-235 the velocity towards the reference. -/
def dqNull (n dt qa qr nul : Nat) (m : Mem ℝ) : Mem ℝ :=
  forN n (fun i m => store m (nul + i) (-(m (dt + i)) * (m (qa + i) - m (qr + i)))) m

/-- src/rx/ik_jacobian.c:212-243 `aa_rx_ik_jac_dx2dq`; `as`, `nul` are its arrays `J_star`, `dqnull`,
`ap` and `b` those of `aa_la_dzdpinv` and `aa_la_xlsnp`. -/
noncomputable def dx2dq (svd : Svd) (o : Parm) (n qa dx j dq as ap nul b : Nat) (m : Mem ℝ) :
    Option (Mem ℝ) :=
  if n = 0 then none
  else
    let m := dzdpinvArr svd 6 n o.s2min j as ap m
    match o.qref with
    | none => some (mvmul n 6 as dx dq m)
    | some qr =>
      match o.dqdt with
      | none => none
      | some dt => some (xlsnp 6 n j as dx nul dq b (dqNull n dt qa qr nul m))

/-- six stores of a velocity. -/
def storeDx (w : Nat) (d : Dx) (m : Mem ℝ) : Mem ℝ :=
  forN 6 (fun i m => store m (w + i)
    (match i with
      | 0 => d.v.x | 1 => d.v.y | 2 => d.v.z | 3 => d.w.x | 4 => d.w.y | _ => d.w.z)) m

/-- src/rx/ik_jacobian.c:245-268 `aa_rx_ik_jac_x2dq`; `w` is the vector `w_e`, `act` and `ref` are what
`E_act` and `E_ref` hold, `dxr` what `dx_ref` holds, or null. -/
noncomputable def x2dq (svd : Svd) (o : Parm) (n qa : Nat) (act ref : Qutr) (dxr : Option Dx)
    (j dq w as ap nul b : Nat) (m : Mem ℝ) : Option (Mem ℝ) :=
  (Wk.dxPos o.gt o.ga act ref (dxr.getD ⟨⟨0, 0, 0⟩, ⟨0, 0, 0⟩⟩)).bind fun d =>
    dx2dq svd o n qa w j dq as ap nul b (storeDx w d m)

end Verif.IkJacStep
