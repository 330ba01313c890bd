import Verif.Model.SgFcl
import Verif.Model.PyCl

/-!
# Separation distances from Python

python/amino/collision.py:237-303 `SceneCollisionDist`, on top of Model/SgFcl.lean.

Simplified as there; what a check finds depends on the pairs allowed at the time, the frames of the objects,
the answers of FCL for the poses given and the pairs that its manager visits, and `Check` has these. The scene
graph does not change. `none` is undefined behaviour or a failed assertion.
-/

namespace Verif.PyDist

open Verif.Sg Verif.Fcl Verif.PyCl

/-- What a call of `check` depends on. -/
structure Check where
  allowed : ClSet
  frame : Nat → Nat
  fdist : Nat → Nat → FclDist
  visits : List (Nat × Nat)

/-- python/amino/collision.py:291-293 `check`: the result of the C function is dropped. -/
noncomputable def check (dblMax : ℝ) (n : Nat) (d : DistData) (c : Check) : Option DistData :=
  distCheck dblMax c.allowed n c.frame c.fdist c.visits d

/-- Calls of `check`, one after the other. -/
noncomputable def checks (dblMax : ℝ) (n : Nat) : DistData → List Check → Option DistData
  | d, [] => some d
  | d, c :: cs => (check dblMax n d c).bind fun d => checks dblMax n d cs

/-- What an access gives. -/
inductive Res (A : Type) where
  | raised
  | val (a : A)

/-- python/amino/collision.py:253-256, 271-273: both frames, then the call of the C function. -/
def withPair {A : Type} (names : List String) (k l : Key) (f : Int → Int → Option A) : Option (Res A) :=
  match actual names k with
  | none => some .raised
  | some i =>
    match actual names l with
    | none => some .raised
    | some j => (f i j).map .val

/-- python/amino/collision.py:247-256 `dist[k, l]`. -/
def dist (names : List String) (d : DistData) (k l : Key) : Option (Res ℝ) :=
  withPair names k l fun i j => getDist names.length d i j

/-- python/amino/collision.py:265-278 `points[k, l]`. -/
def points (names : List String) (d : DistData) (k l : Key) : Option (Res (ℝ × Tf.V3 × Tf.V3)) :=
  withPair names k l fun i j => getPoints names.length d i j

end Verif.PyDist
