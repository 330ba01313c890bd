import Verif.Model.IkCx

/-!
# Inverse kinematics from Python

python/amino/kinematics.py:259-335 `SceneIK`, on top of the contexts of Model/IkCx.lean.

`none` stands for the end of the process or undefined behaviour, as there. Simplified: a reference is a
value, as `QuatTrans(tf_ref)` copies what it is given (python/amino/tf.py:1069-1090); writing to the object
that `ref_tf` returns is left out. A seed is a list of numbers: `SubSceneGraph.config_vector`
(python/amino/scenegraph.py:774-780) makes a vector of it, whatever its length. What the algorithms do with
what they are given is an arbitrary function `solver`; its values are the result and the vector.
-/

namespace Verif.PyIk

open Verif.IkCx

/-- The parameters that Python can set: src/rx/ik_opt.c:57-89 has their first values. -/
structure Parm (F : Type) where
  tolAngle : ℝ
  tolTrans : ℝ
  obj : F

/-- python/amino/kinematics.py:261-267: the reference, the context and the parameters, to which the context
only has a pointer (src/rx/scene_ik.c:78). -/
structure St (P R F : Type) where
  ref : Option R
  cx : Cx P
  parm : Parm F

/-- What a program calls. -/
inductive Call (R F : Type) where
  | setRef (r : Option R)
  | setSeed (q : List ℝ)
  | seedCenter
  | seedRand (r : List ℝ)
  | setObj (f : F)
  | tolAngle (t : ℝ)
  | tolTrans (t : ℝ)
  | restart (t : ℝ)

variable {P R F : Type}

/-- python/amino/kinematics.py:263-267 `__init__`; the parameters have no frame (src/rx/ik_opt.c:78). -/
def init (s : Scene P) (p : Parm F) (old : List ℝ) : Option (St P R F) :=
  (create s (-2) old).map fun cx => ⟨none, cx, p⟩

/-- python/amino/kinematics.py:278-315, the setters; `ident` is what `QuatTrans(None)` is
(python/amino/tf.py:1071-1072). -/
noncomputable def call (s : Scene P) (ident : R) (st : St P R F) : Call R F → Option (St P R F)
  | .setRef r => some { st with ref := some (r.getD ident) }
  | .setSeed q => (step s st.cx (.setSeed q)).map fun cx => { st with cx := cx }
  | .seedCenter => (step s st.cx .seedCenter).map fun cx => { st with cx := cx }
  | .seedRand r => (step s st.cx (.seedRand r)).map fun cx => { st with cx := cx }
  | .setObj f => some { st with parm := { st.parm with obj := f } }
  | .tolAngle t => some { st with parm := { st.parm with tolAngle := t } }
  | .tolTrans t => some { st with parm := { st.parm with tolTrans := t } }
  | .restart t => (step s st.cx (.restart t)).map fun cx => { st with cx := cx }

/-- A program of calls. -/
noncomputable def calls (s : Scene P) (ident : R) : St P R F → List (Call R F) → Option (St P R F)
  | st, [] => some st
  | st, c :: cs => (call s ident st c).bind fun st => calls s ident st cs

/-- What the algorithms of `aa_rx_ik_solve` are given (src/rx/scene_ik.c:219-250). -/
structure Job (P R F : Type) where
  target : R
  kin : Kin P
  parm : Parm F
  restart : ℝ

/-- What `solve` does. -/
inductive Out where
  | raised
  | got (q : Option (List ℝ))

/-- python/amino/kinematics.py:317-335 `solve`. The reference is the one column of a matrix with seven rows
and the vector has the length of the sub-scenegraph, so that the checks of src/rx/scene_ik.c:224-241 pass. -/
def solve (s : Scene P) (solver : Job P R F → Int × List ℝ) (st : St P R F) : Option Out :=
  match st.ref with
  | none => some .raised
  | some r => (kin s st.cx).map fun k =>
    let res := solver ⟨r, k, st.parm, st.cx.restart⟩
    .got (if res.1 = 0 then some res.2 else none)

end Verif.PyIk
