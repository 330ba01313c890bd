import Mathlib.Data.Real.Basic
import Mathlib.Algebra.Module.Basic
import Mathlib.Algebra.BigOperators.Group.Finset.Basic
import Mathlib.Data.Fintype.BigOperators

/-!
# Differential equations (src/sigsys.c)

A state vector is an element of a real vector space `E` (for the C code: `Fin n → ℝ`), the system function
is `f : ℝ → E → E`, and the derivative matrix `k` is the function giving its columns. Rounding is not
modelled. Scratch contents that are written before they are read are left out (in `aa_ode_sol` the columns
of `k` other than the first hold arbitrary values at the start).
-/

namespace Verif.Ode
open Finset

noncomputable section

variable {E : Type} [AddCommGroup E] [Module ℝ E]

/-- `cblas_dgemv` of the first `p` columns of `k`: `x + dt * k * a`. -/
def gemv (dt : ℝ) (k : Nat → E) (p : Nat) (a : List ℝ) (x : E) : E :=
  x + dt • ∑ j ∈ range p, a.getD j 0 • k j

/-- src/sigsys.c:164-177 `aa_odestep_euler`. -/
def euler (dt : ℝ) (dx x0 : E) : E := x0 + dt • dx

/-- src/sigsys.c:180-187 `aa_odestep_rk1`. -/
def rk1 (f : ℝ → E → E) (t0 dt : ℝ) (x0 : E) : E := euler dt (f t0 x0) x0

/-- a derivative matrix given by its first columns. -/
def cols (l : List E) : Nat → E := fun j => l.getD j 0

/-- src/sigsys.c:196-222 `aa_odestep_rk2`. -/
def rk2 (f : ℝ → E → E) (t0 dt : ℝ) (x0 : E) : E :=
  let k0 := f t0 x0
  let k1 := f (t0 + dt) (euler dt k0 x0)
  gemv dt (cols [k0, k1]) 2 [1 / 2, 1 / 2] x0

/-- src/sigsys.c:233-294 `aa_odestep_rk4`. -/
def rk4 (f : ℝ → E → E) (t0 dt : ℝ) (x0 : E) : E :=
  let k0 := f t0 x0
  let k1 := f (t0 + dt / 2) (euler (dt / 2) k0 x0)
  let k2 := f (t0 + dt / 2) (euler (dt / 2) k1 x0)
  let k3 := f (t0 + dt) (euler dt k2 x0)
  gemv dt (cols [k0, k1, k2, k3]) 4 [1 / 6, 1 / 3, 1 / 3, 1 / 6] x0

/-- src/sigsys.c:299-314 `butcher`: the new contents of `x1`. -/
def butcherX (dt : ℝ) (x0 : E) (p : Nat) (a : List ℝ) (k : Nat → E) : E := gemv dt k p a x0

/-- src/sigsys.c:299-314 `butcher`: column `d` of `k` gets the derivative. -/
def butcher (f : ℝ → E → E) (t0 dt : ℝ) (x0 : E) (c : ℝ) (p : Nat) (a : List ℝ) (k : Nat → E) (d : Nat) :
    Nat → E :=
  Function.update k d (f (t0 + dt * c) (butcherX dt x0 p a k))

/-- The result of an adaptive step: the matrix `k` and the two solutions. -/
structure Step (E : Type) where
  k : Nat → E
  lo : E
  hi : E

/-- src/sigsys.c:330-381 `aa_odestep_rkf45`. -/
def rkf45 (f : ℝ → E → E) (t0 dt : ℝ) (x0 : E) (k : Nat → E) : Step E :=
  let k := Function.update k 1 (f (t0 + dt * (1 / 4)) (x0 + (1 / 4 * dt) • k 0))
  let k := butcher f t0 dt x0 (3 / 8) 2 [3 / 32, 9 / 32] k 2
  let k := butcher f t0 dt x0 (12 / 13) 3 [1932 / 2197, -7200 / 2197, 7296 / 2197] k 3
  let k := butcher f t0 dt x0 1 4 [439 / 216, -8, 3680 / 513, -845 / 4104] k 4
  let k := butcher f t0 dt x0 (1 / 2) 5 [-8 / 27, 2, -3544 / 2565, 1859 / 4104, -11 / 40] k 1
  { k := k
    lo := gemv dt k 5 [25 / 216, 0, 1408 / 2565, 2197 / 4104, -1 / 5] x0
    hi := gemv dt k 5 [16 / 135, 2 / 55, 6656 / 12825, 28561 / 56430, -9 / 50] x0 }

/-- src/sigsys.c:399-450 `aa_odestep_rkck45`. -/
def rkck45 (f : ℝ → E → E) (t0 dt : ℝ) (x0 : E) (k : Nat → E) : Step E :=
  let k := Function.update k 1 (f (t0 + dt * (1 / 5)) (x0 + (1 / 5 * dt) • k 0))
  let k := butcher f t0 dt x0 (3 / 10) 2 [3 / 40, 9 / 40] k 2
  let k := butcher f t0 dt x0 (3 / 5) 3 [3 / 10, -9 / 10, 6 / 5] k 3
  let k := butcher f t0 dt x0 1 4 [-11 / 54, 5 / 2, -70 / 27, 35 / 27] k 4
  let k := butcher f t0 dt x0 (7 / 8) 5 [1631 / 55296, 175 / 512, 575 / 13824, 44275 / 110592, 253 / 4096] k 1
  { k := k
    lo := gemv dt k 4 [37 / 378, 512 / 1771, 250 / 621, 125 / 594] x0
    hi := gemv dt k 5 [2825 / 27648, 277 / 14336, 18575 / 48384, 13525 / 55296, 1 / 4] x0 }

/-- the fourth entry of the table at src/sigsys.c:484, `8/9` in integer arithmetic. -/
def dorpriC3 : ℝ := ((8 / 9 : Nat) : ℝ)

/-- src/sigsys.c:467-526 `aa_odestep_dorpri45`, for a given value `c3` of the fourth node. -/
def dorpri45With (c3 : ℝ) (f : ℝ → E → E) (t0 dt : ℝ) (x0 : E) (k : Nat → E) : Step E :=
  let k := Function.update k 1 (f (t0 + dt * (1 / 5)) (x0 + (1 / 5 * dt) • k 0))
  let k := butcher f t0 dt x0 (3 / 10) 2 [3 / 40, 9 / 40] k 2
  let k := butcher f t0 dt x0 (4 / 5) 3 [44 / 45, -56 / 15, 32 / 9] k 3
  let k := butcher f t0 dt x0 c3 4 [19372 / 6561, -25360 / 2187, 64448 / 6561, -212 / 729] k 4
  let k := butcher f t0 dt x0 1 5 [9017 / 3168, -355 / 33, 46732 / 5247, 49 / 176, -5103 / 18656] k 1
  let a5 : List ℝ := [35 / 384, 11 / 84, 500 / 1113, 125 / 192, -2187 / 6784]
  let x4 := butcherX dt x0 5 a5 k
  let k := butcher f t0 dt x0 1 5 a5 k 5
  { k := k
    lo := x4
    hi := gemv dt k 6 [5179 / 57600, 187 / 2100, 7571 / 16695, 393 / 640, -92097 / 339200, 1 / 40] x0 }

/-- src/sigsys.c:467-526 `aa_odestep_dorpri45`. -/
def dorpri45 (f : ℝ → E → E) (t0 dt : ℝ) (x0 : E) (k : Nat → E) : Step E := dorpri45With dorpriC3 f t0 dt x0 k

/-- src/sigsys.c:539-572 `aa_odestep_rkbs23`. -/
def rkbs23 (f : ℝ → E → E) (t0 dt : ℝ) (x0 : E) (k : Nat → E) : Step E :=
  let k := Function.update k 1 (f (t0 + dt / 2) (x0 + (dt / 2) • k 0))
  let k := Function.update k 2 (f (t0 + 3 * dt / 4) (x0 + (3 * dt / 4) • k 1))
  let v1 : List ℝ := [2 / 9, 1 / 3, 4 / 9]
  let x2 := butcherX dt x0 3 v1 k
  let k := butcher f t0 dt x0 1 3 v1 k 3
  { k := k
    lo := x2
    hi := gemv dt k 4 [7 / 24, 1 / 4, 1 / 3, 1 / 8] x0 }

/-- src/sigsys.c:77-95 `aa_lsim_dstep`, `A` and `B` as linear maps. -/
def lsimDstep {U : Type} (A : E → E) (B : U → E) (x0 : E) (u : U) : E := A x0 + B u

/-- src/sigsys.c:97-111 `aa_lsim_estep`. -/
def lsimEstep {U : Type} (dt : ℝ) (A : E → E) (B : U → E) (x0 : E) (u : U) : E :=
  dt • lsimDstep A B x0 u + x0

/-- src/sigsys.c:140-161 `aa_lsim_rk4step`. -/
def lsimRk4step {U : Type} (dt : ℝ) (A : E → E) (B : U → E) (x0 : E) (u : U) : E :=
  rk4 (fun _ x => lsimDstep A B x u) 0 dt x0

/-! ## The solver -/

/-- include/amino/math.h:812-827 -/
inductive Integrator | rk1 | rk2 | rk4 | rk45f | rk45ck | rk45dp | rk23bs

/-- include/amino/math.h:850-867 `struct aa_ode_sol_opts`. -/
structure Opts where
  tolDec : ℝ
  tolInc : ℝ
  factorDec : ℝ
  factorInc : ℝ

/-- include/amino/math.h:845 the check callback: from its context, the time, the state and the derivative
to its result, the state and the derivative it leaves behind, and the new context. -/
abbrev Check (σ E : Type) := σ → ℝ → E → E → Int × E × E × σ

/-- One call of the check: its arguments, its result and the state and derivative it left behind. -/
structure Call (E : Type) where
  t : ℝ
  x : E
  y : E
  res : Int
  x' : E
  y' : E

/-- src/sigsys.c:703-707 the return value. -/
def code (r : Int) : Int := if r > 0 then 0 else r

/-- the return value, `x1`, the context of the check and its calls. -/
structure Result (σ E : Type) where
  ret : Int
  x1 : E
  cx : σ
  calls : List (Call E)

/-- src/sigsys.c:678-700 fixed step integration, at most `fuel` turns. -/
def fixedLoop {σ : Type} (step : (ℝ → E → E) → ℝ → ℝ → E → E) (f : ℝ → E → E) (check : Check σ E) (dt : ℝ) :
    Nat → ℝ → E → σ → List (Call E) → Option (Result σ E)
  | 0, _, _, _, _ => none
  | fuel + 1, t, x0, cx, calls =>
    let x1 := step f t dt x0
    let t := t + dt
    let y := f t x1
    let r := check cx t x1 y
    let calls := calls ++ [⟨t, x1, y, r.1, r.2.1, r.2.2.1⟩]
    if r.1 ≠ 0 then some ⟨code r.1, r.2.1, r.2.2.2, calls⟩
    else fixedLoop step f check dt fuel t r.2.1 r.2.2.2 calls

/-- src/sigsys.c:638-676 adaptive step integration, at most `fuel` integrator steps; `nk` is the number of
columns of `k`, `ssd` is `aa_la_ssd`. -/
def adaptLoop {σ : Type} (step : (ℝ → E → E) → ℝ → ℝ → E → (Nat → E) → Step E) (nk : Nat) (ssd : E → E → ℝ)
    (o : Opts) (f : ℝ → E → E) (check : Check σ E) (t : ℝ) :
    Nat → ℝ → E → (Nat → E) → σ → List (Call E) → Option (Result σ E)
  | 0, _, _, _, _, _ => none
  | fuel + 1, dt, x0, k, cx, calls =>
    let s := step f t dt x0 k
    let err := ssd s.lo s.hi
    if err > o.tolDec then adaptLoop step nk ssd o f check t fuel (dt * o.factorDec) x0 s.k cx calls
    else
      let dt := if err < o.tolInc then dt * o.factorInc else dt
      let r := check cx t s.hi (s.k (nk - 1))
      let calls := calls ++ [⟨t, s.hi, s.k (nk - 1), r.1, r.2.1, r.2.2.1⟩]
      if r.1 ≠ 0 then some ⟨code r.1, r.2.1, r.2.2.2, calls⟩
      else
        let k := Function.update s.k (nk - 1) r.2.2.1
        adaptLoop step nk ssd o f check t fuel dt r.2.1 (Function.update k 0 (k (nk - 1))) r.2.2.2 calls

/-- src/sigsys.c:590-708 `aa_ode_sol`. -/
def odeSol {σ : Type} (i : Integrator) (ssd : E → E → ℝ) (o : Opts) (f : ℝ → E → E) (check : Check σ E) (fuel : Nat)
    (t0 dt0 : ℝ) (x0 : E) (cx : σ) : Option (Result σ E) :=
  let k : Nat → E := fun _ => f t0 x0
  match i with
  | .rk1 => fixedLoop rk1 f check dt0 fuel t0 x0 cx []
  | .rk2 => fixedLoop rk2 f check dt0 fuel t0 x0 cx []
  | .rk4 => fixedLoop rk4 f check dt0 fuel t0 x0 cx []
  | .rk45f => adaptLoop rkf45 5 ssd o f check t0 fuel dt0 x0 k cx []
  | .rk45ck => adaptLoop rkck45 5 ssd o f check t0 fuel dt0 x0 k cx []
  | .rk45dp => adaptLoop dorpri45 6 ssd o f check t0 fuel dt0 x0 k cx []
  | .rk23bs => adaptLoop rkbs23 4 ssd o f check t0 fuel dt0 x0 k cx []

/-- src/sigsys.c:722-730 `ode_path_check`; the context holds the list and the context of the check. -/
def pathCheck {σ : Type} (check : Check σ E) : Check (List E × σ) E := fun cx t x y =>
  let r := check cx.2 t x y
  (r.1, r.2.1, r.2.2.1, (cx.1 ++ [x], r.2.2.2))

/-- src/sigsys.c:732-780 `aa_ode_path`: the return value and the points. -/
def odePath {σ : Type} (i : Integrator) (ssd : E → E → ℝ) (o : Opts) (f : ℝ → E → E) (check : Check σ E)
    (fuel : Nat) (t0 dt0 : ℝ) (x0 : E) (cx : σ) : Option (Int × List E × σ) :=
  (odeSol i ssd o f (pathCheck check) fuel t0 dt0 x0 ([x0], cx)).map fun r => (r.ret, r.cx.1, r.cx.2)

end

end Verif.Ode
