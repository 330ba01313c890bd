import Verif.Model.Opt

/-!
# Constrained workspace control (src/rx/lc3.c)

The Jacobian `J`, its pseudo-inverse `Js` and the solution `x` of the linear program are arguments.
Limits and bounds are extended reals, everything else is real.  `aa_rx_sg_sub_jacobian_size`
(scene_kin.c 620-627) always sets `n_x` to 6; here it is arbitrary.
-/

namespace Verif.Lc3

open Verif.Opt

/-- Lower and upper limits of a configuration; infinite if there is none (lc3.c 175-183). -/
structure Lim where
  qMin : EReal
  qMax : EReal
  dqMin : EReal
  dqMax : EReal
  ddqMin : EReal
  ddqMax : EReal

open Classical in
/-- `b_min[i]` (lc3.c 179, 189, 195-199, 203-204). -/
noncomputable def bMin (L : Lim) (dt q dq : ℝ) : EReal :=
  let b : EReal := if isFinite L.dqMin then ((L.dqMin.toReal - dq : ℝ) : EReal) else ⊥
  let b := if isFinite L.ddqMax ∧ isFinite L.qMin then
    max b (((L.qMin.toReal - q) / dt - L.ddqMax.toReal * (dt / 2) - dq : ℝ) : EReal) else b
  if isFinite L.ddqMin then max b ((L.ddqMin.toReal * dt : ℝ) : EReal) else b

open Classical in
/-- `b_max[i]` (lc3.c 180, 190, 192-194, 205-208). -/
noncomputable def bMax (L : Lim) (dt q dq : ℝ) : EReal :=
  let b : EReal := if isFinite L.dqMax then ((L.dqMax.toReal - dq : ℝ) : EReal) else ⊤
  let b := if isFinite L.ddqMax then min b ((L.ddqMax.toReal * dt : ℝ) : EReal) else b
  if isFinite L.ddqMin ∧ isFinite L.qMax then
    min b (((L.qMax.toReal - q) / dt - L.ddqMin.toReal * (dt / 2) - dq : ℝ) : EReal) else b

/-- `aa_rx_wk_get_n` with `alpha = 1` (scene_wk_internal.h 89-114): `Js J - I`. -/
def projN (nX : Nat) (J Js : Nat → Nat → ℝ) (i k : Nat) : ℝ :=
  (∑ j ∈ Finset.range nX, Js i j * J j k) - if i = k then 1 else 0

/-- The constraint matrix (lc3.c 123-145): `n_x` columns `Js dt` and the column `N (dq_a - dq_r)`. -/
def conA (nX nQ : Nat) (J Js : Nat → Nat → ℝ) (dt : ℝ) (dqA dqR : Nat → ℝ) (i j : Nat) : ℝ :=
  if j < nX then dt * Js i j
  else ∑ k ∈ Finset.range nQ, projN nX J Js i k * (dqA k - dqR k)

/-- The objective (lc3.c 148-159). -/
noncomputable def objC (nX nQ : Nat) (J : Nat → Nat → ℝ) (dt : ℝ) (dxR dqA : Nat → ℝ)
    (i : Nat) : ℝ :=
  if i < nX then -1 / dt * ((∑ k ∈ Finset.range nQ, J i k * dqA k) - dxR i) else 1

open Classical in
/-- `x_min`, `x_max` (lc3.c 161-174). -/
noncomputable def xBnd (nX : Nat) (c : Nat → ℝ) (i : Nat) : ℝ × ℝ :=
  if i < nX then if c i > 0 then (0, c i) else if c i < 0 then (c i, 0) else (0, 0)
  else (0, 1)

/-- `aa_rx_wk_dx2dq_lc3` after a successful solution `x` (lc3.c 285-359).  `none` is a memory error:
`cblas_daxpy` adds `n_x` elements of the last column, which has `n_q`, to `dq`, which has `n_q`.  The
outer `Option` is the early return for `dt <= 0`. -/
noncomputable def dx2dq (nX nQ : Nat) (J Js : Nat → Nat → ℝ) (dt : ℝ) (dqA dqR x : Nat → ℝ) :
    Option (Option (Nat → ℝ)) :=
  if dt ≤ 0 then none
  else if nQ < nX then some none
  else some (some fun i => dqA i +
    (∑ j ∈ Finset.range nX, conA nX nQ J Js dt dqA dqR i j * x j) +
    if i < nX then x nX * conA nX nQ J Js dt dqA dqR i nX else 0)

end Verif.Lc3
