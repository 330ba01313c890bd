import Verif.Model.TfVel

/-!
# Workspace control (src/rx/scene_wk.c)

Modelled over the reals.  `none` stands for a division by zero.  `aa_rx_wk_dx2dq` and
`aa_rx_wk_dx2dq_np` are in `Model/Pinv.lean`.
-/

namespace Verif.Wk

open Verif.Tf

/-- src/rx/scene_wk.c:171-195 `aa_rx_wk_dx_pos`; `gt`, `ga` are the gains `gain_trans`, `gain_angle` of
the options, `dx` the velocity the result is added to.  The size check of `dx` is not modelled. -/
noncomputable def dxPos (gt ga : ℝ) (act ref : Qutr) (dx : Dx) : Option Dx :=
  let e := qutrMulc act ref
  (qutrLnv ⟨qminimize e.q, e.v⟩).map fun w =>
    let vel := twist2vel act.v w
    ⟨⟨dx.v.x - gt * vel.v.x, dx.v.y - gt * vel.v.y, dx.v.z - gt * vel.v.z⟩,
     ⟨dx.w.x - ga * vel.w.x, dx.w.y - ga * vel.w.y, dx.w.z - ga * vel.w.z⟩⟩

/-- src/rx/scene_wk.c:155-167, the loop body of `aa_rx_wk_dqcenter`: `gain` is `gain_np`, `lim` the
position limits of the joint, if there are any. -/
noncomputable def dqcenter (gain : ℝ) (lim : Option (ℝ × ℝ)) (q : ℝ) : Option ℝ :=
  match lim with
  | none => some 0
  | some (lo, hi) =>
    if hi - lo = 0 then none
    else some (gain * (((hi + lo) / 2 - q) / (hi - lo)))

end Verif.Wk
