import Verif.Model.Wk
import Mathlib.Logic.Function.Basic

/-!
# Velocities of a sub-scenegraph from Python

python/amino/kinematics.py:138-225 `SceneDK`.

Simplified: a vector is a number that names it, and a store gives its six elements; vector `0` is the
attribute `dx` of the object. `pose` gives the pose of the end effector of a configuration, and `js`
the product with the pseudo-inverse of its Jacobian (`aa_rx_wk_dx2dq`, src/rx/scene_wk.c:78-105, which
always returns 0; see Model/Pinv.lean). Writing to the pose that the attribute `ref_tf` returns is left
out, and so is the reference configuration, which nothing uses.
-/

namespace Verif.PyDk

open Verif.Tf Verif.Wk

/-- The object and the vectors of the program. -/
structure St (C : Type) where
  vecs : Nat → Dx
  config : C
  tfRef : Option Qutr
  velRef : Option Nat

/-- What a program does. -/
inductive Op (C : Type) where
  | setTf (E : Qutr)
  | setVel (a : Option Nat)
  | write (a : Nat) (d : Dx)
  | configure (c : C)
  | solve

/-- Six zeros. -/
def dzero : Dx := ⟨⟨0, 0, 0⟩, ⟨0, 0, 0⟩⟩

/-- python/amino/kinematics.py:150-157 `__init__`. -/
def init {C : Type} (vecs : Nat → Dx) (c : C) : St C := ⟨Function.update vecs 0 dzero, c, none, none⟩

/-- python/amino/kinematics.py:206-212, the velocity that `solve_vel` begins with. -/
def refDx {C : Type} (s : St C) : Dx :=
  match s.velRef with
  | some a => s.vecs a
  | none => dzero

/-- python/amino/kinematics.py:194-225 `solve_vel`; `none` is the exception. -/
noncomputable def solveVel {C : Type} (gt ga : ℝ) (pose : C → Qutr) (js : C → Dx → List ℝ) (s : St C) :
    Option (St C × List ℝ) :=
  if s.tfRef.isNone && s.velRef.isNone then none
  else
    let dx := refDx s
    match s.tfRef with
    | some E => (dxPos gt ga (pose s.config) E dx).map fun d =>
        ({ s with vecs := Function.update s.vecs 0 d }, js s.config d)
    | none => some ({ s with vecs := Function.update s.vecs 0 dx }, js s.config dx)

/-- A step of a program: python/amino/kinematics.py:167-180, the setters; writing to a vector; setting the
configuration (85-89); `solve_vel`. -/
noncomputable def step {C : Type} (gt ga : ℝ) (pose : C → Qutr) (js : C → Dx → List ℝ) (s : St C) :
    Op C → St C
  | .setTf E => { s with tfRef := some E }
  | .setVel a => { s with velRef := a }
  | .write a d => { s with vecs := Function.update s.vecs a d }
  | .configure c => { s with config := c }
  | .solve => ((solveVel gt ga pose js s).map Prod.fst).getD s

/-- A program. -/
noncomputable def run {C : Type} (gt ga : ℝ) (pose : C → Qutr) (js : C → Dx → List ℝ) (s : St C)
    (l : List (Op C)) : St C := l.foldl (step gt ga pose js) s

end Verif.PyDk
