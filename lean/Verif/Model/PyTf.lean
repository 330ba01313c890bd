import Verif.Model.Spatial

/-!
# The rotation and pose classes of Python (python/amino/tf.py)

One value for every object, and one function for every constructor, conversion, operator and property.
What the C functions compute is in `Verif.Model.Tf`, `Verif.Model.TfConv` and `Verif.Model.TfVel`; the
arrays of `Quat`, `RotMat`, … are passed to them by reference and hold the same numbers in the same order.
The methods that fill an object given as an argument (`to_quat(self, h)`) return it here.  A Python
exception is a result of its own.
-/

namespace Verif.Py

open Verif.Tf
open Verif.Tf.Cpp (Val)

noncomputable section

/-- The exceptions raised; `nan` is no exception: the C function divided by zero and the new object holds
no numbers. -/
inductive Exc
  | typeError | attributeError | indexError | valueError | argumentError | nan
  deriving DecidableEq

/-- A Python object: a number, a list or a tuple of numbers, a tuple of two objects, or an instance of a class
of tf.py. `zyx` and `rpy` are `EulerZYX` and `EulerRPY` (293-385) with the fields `_z`, `_y`, `_x`. -/
inductive Obj
  | num (x : ℝ)
  | list (l : List ℝ)
  | tuple (l : List ℝ)
  | pair (a b : Obj)
  | val (v : Val)
  | zyx (z y x : ℝ)
  | rpy (z y x : ℝ)

/-- The classes of rotations and poses that have constructors. -/
inductive Cls
  | quat | rotmat | axang | zyx | rpy | tfm | duqu | qutr
  deriving DecidableEq

abbrev Res := Except Exc

/-- tf.py:50-61 `Vec3.__init__`, 71-72 `Vec3.ensure`; mixin.py:55-62 `copy_from` of a `Vec3` has the same
cases. The lengths are those of `__len__`; numbers, angles, axis-angles, Euler angles and rotation matrices
have none. -/
def vec3Of : Obj → Res V3
  | .list [x, y, z] | .tuple [x, y, z] => .ok ⟨x, y, z⟩
  | .val (.vec v) => .ok v
  | .list _ | .tuple _ | .pair _ _ => .error .indexError
  | .val (.quat _) | .val (.tfm _) | .val (.duqu _) | .val (.qutr _) => .error .indexError
  | _ => .error .typeError

/-- The methods `to_quat`: tf.py:202-212 (`Vec3`), 219-221, 245-247, 271-273 (angles), 308-310 (Euler
angles), 418-420 (`AxAng`), 499-504 (`Quat`), 720-722 (`RotMat`). -/
def toQuat : Obj → Res Quat
  | .val (.vec v) => .ok ⟨v.x, v.y, v.z, 0⟩
  | .val (.ang a t) => .ok (angle2quat a t)
  | .zyx z y x | .rpy z y x => .ok (euler2quat .Z .Y .X z y x)
  | .val (.axang a) => .ok (axang2quat a)
  | .val (.quat q) => .ok q
  | .val (.rotmat R) => .ok (rotmat2quat R)
  | _ => .error .attributeError

/-- tf.py:459-487 `Quat.__init__`, `Quat.conv_from`; 495-497 `Quat.ensure`. -/
def quatOf : Obj → Res Quat
  | .num w => .ok ⟨0, 0, 0, w⟩
  | .list [x, y, z, w] | .tuple [x, y, z, w] => .ok ⟨x, y, z, w⟩
  | .list _ | .tuple _ | .pair _ _ => .error .indexError
  | o => toQuat o

/-- The methods `to_rotmat`: tf.py:223-225, 249-251, 275-277, 312-314, 422-424, 506-508, 724-728. -/
def toRotmat : Obj → Res M3
  | .val (.ang a t) => .ok (angle2rotmat a t)
  | .zyx z y x | .rpy z y x => .ok (euler2rotmat .Z .Y .X z y x)
  | .val (.axang a) => .ok (rotmatExpAa a)
  | .val (.quat q) => .ok (quat2rotmat q)
  | .val (.rotmat R) => .ok R
  | _ => .error .attributeError

/-- tf.py:529-531 `Quat.ssd` (src/tf/quat_ord.c `aa_tf_qssd`) of a quaternion and 1, which `src == 1` in
`RotMat.conv_from` compares with 0 (mixin.py:39-40). -/
def qssdOne (q : Quat) : ℝ := (q.x - 0) ^ 2 + (q.y - 0) ^ 2 + (q.z - 0) ^ 2 + (q.w - 1) ^ 2

open Classical in
/-- tf.py:677-701 `RotMat.__init__`, `RotMat.conv_from`, `RotMat.set_identity`; `src == 1` makes a `Vec3`
of 1 if `src` is a `Vec3`. -/
def rotmatOf : Obj → Res M3
  | .num x => if x = 1 then .ok m3ident else .error .attributeError
  | .val (.vec _) => .error .typeError
  | .val (.quat q) => if qssdOne q = 0 then .ok m3ident else toRotmat (.val (.quat q))
  | o => toRotmat o

/-- A C result that may not be a number. -/
def ofC {α : Type} : Option α → Res α
  | some a => .ok a
  | none => .error .nan

/-- The methods `to_axang`: tf.py:227-229, 253-255, 279-281, 426-429, 510-512, 730-732. -/
def toAxang : Obj → Res Axang
  | .val (.ang a t) => .ok (angle2axang a t)
  | .val (.axang a) => .ok a
  | .val (.quat q) => .ok (quat2axang q)
  | .val (.rotmat R) => ofC (rotmat2axang R)
  | _ => .error .attributeError

/-- tf.py:392-411 `AxAng.__init__`, `AxAng.conv_from`. -/
def axangOf : Obj → Res Axang
  | .list [x, y, z, t] | .tuple [x, y, z, t] => ofC (axangNormalize ⟨⟨x, y, z⟩, t⟩)
  | .list _ | .tuple _ | .pair _ _ => .error .indexError
  | o => toAxang o

/-- Euler angles in memory: the fields of tf.py:295-296. -/
structure Eul where
  z : ℝ
  y : ℝ
  x : ℝ

/-- tf.py:321-323 the setter of `x`. -/
def Eul.setX (e : Eul) (t : ℝ) : Eul := { e with x := t }

/-- The setter of `y`: tf.py:330-332 in `EulerZYX`, and 380-382, the yaw, in `EulerRPY`. -/
def Eul.setY (rpy : Bool) (e : Eul) (t : ℝ) : Eul := if rpy then { e with z := t } else { e with y := t }

/-- tf.py:339-341 the setter of `z`. -/
def Eul.setZ (e : Eul) (t : ℝ) : Eul := { e with z := t }

/-- tf.py:231-235, 257-261, 283-287 `to_eulerzyx` of the angles, with the setters of the object that is
filled. -/
def angEuler (rpy : Bool) (a : Ax) (t : ℝ) (e : Eul) : Eul :=
  match a with
  | .X => (Eul.setY rpy (e.setX t) 0).setZ 0
  | .Y => (Eul.setY rpy (e.setX 0) t).setZ 0
  | .Z => (Eul.setY rpy (e.setX 0) 0).setZ t

/-- tf.py:298-306 `EulerZYX.__init__` and 350-355 `EulerRPY.__init__`, which turns a sequence around;
`Quat.to_eulerzyx` (514-519) has no parameter for the object to be filled. -/
def eulerOf (rpy : Bool) : Obj → Res Eul
  | .list [a, b, c] | .tuple [a, b, c] => .ok (if rpy then ⟨c, b, a⟩ else ⟨a, b, c⟩)
  | .list _ | .tuple _ | .pair _ _ => .error .indexError
  | .val (.ang a t) => .ok (angEuler rpy a t ⟨0, 0, 0⟩)
  | .val (.quat _) => .error .typeError
  | _ => .error .attributeError

/-- The properties `rotation`: tf.py:857-859, 1041-1043, 1165-1167. -/
def rotation : Obj → Res Obj
  | .val (.tfm T) => .ok (.val (.rotmat T.R))
  | .val (.duqu S) => .ok (.val (.quat S.real))
  | .val (.qutr E) => .ok (.val (.quat E.q))
  | _ => .error .attributeError

/-- The properties `translation`: tf.py:866-868, 1046-1050, 1174-1176. -/
def translation : Obj → Res V3
  | .val (.tfm T) => .ok T.v
  | .val (.duqu S) => .ok (duquTrans S)
  | .val (.qutr E) => .ok E.v
  | _ => .error .attributeError

/-- The two parts that the constructor of a pose takes: the elements of a tuple of two, or the rotation and the
translation of another pose (tf.py:824-831, 935-943, 1081-1090). -/
def parts : Obj → Res (Obj × Obj)
  | .pair r v => .ok (r, v)
  | .tuple [a, b] => .ok (.num a, .num b)
  | .tuple _ => .error .valueError
  | o => do
    let r ← rotation o
    let v ← translation o
    pure (r, .val (.vec v))

/-- tf.py:817-831 `TfMat.__init__`, `TfMat.conv_from`. -/
def tfmOf (o : Obj) : Res Tfm := do
  let (r, v) ← parts o
  let R ← rotmatOf r
  let v ← vec3Of v
  pure ⟨R, v⟩

/-- tf.py:923-943 `DualQuat.__init__`, `DualQuat.conv_from`. -/
def duquOf : Obj → Res Duqu
  | .list [a, b, c, d, e, f, g, h] => .ok ⟨⟨a, b, c, d⟩, ⟨e, f, g, h⟩⟩
  | .list _ => .error .indexError
  | o => do
    let (r, v) ← parts o
    let q ← quatOf r
    let v ← vec3Of v
    pure (qutr2duqu ⟨q, v⟩)

/-- tf.py:1069-1090 `QuatTrans.__init__`, `QuatTrans.conv_from`. -/
def qutrOf : Obj → Res Qutr
  | .list [a, b, c, d, e, f, g] => .ok ⟨⟨a, b, c, d⟩, ⟨e, f, g⟩⟩
  | .list _ => .error .indexError
  | o => do
    let (r, v) ← parts o
    let q ← quatOf r
    let v ← vec3Of v
    pure ⟨q, v⟩

/-- An object of a class, made from another one: `Quat(o)`, `RotMat(o)`, …. -/
def new : Cls → Obj → Res Obj
  | .quat, o => (quatOf o).map fun q => .val (.quat q)
  | .rotmat, o => (rotmatOf o).map fun R => .val (.rotmat R)
  | .axang, o => (axangOf o).map fun a => .val (.axang a)
  | .zyx, o => (eulerOf false o).map fun e => .zyx e.z e.y e.x
  | .rpy, o => (eulerOf true o).map fun e => .rpy e.z e.y e.x
  | .tfm, o => (tfmOf o).map fun T => .val (.tfm T)
  | .duqu, o => (duquOf o).map fun S => .val (.duqu S)
  | .qutr, o => (qutrOf o).map fun E => .val (.qutr E)

/-- An object made without an argument: tf.py:399-402 with 394-396, 466-470 with 576-581, 684-688, 820-822
with 839-842, 925-933, 1070-1079; the Euler angles 299-300. -/
def new0 : Cls → Obj
  | .quat => .val (.quat ⟨0, 0, 0, 1⟩)
  | .rotmat => .val (.rotmat m3ident)
  | .axang => .val (.axang ⟨⟨0, 0, 1⟩, 0⟩)
  | .zyx => .zyx 0 0 0
  | .rpy => .rpy 0 0 0
  | .tfm => .val (.tfm ⟨m3ident, ⟨0, 0, 0⟩⟩)
  | .duqu => .val (.duqu ⟨⟨0, 0, 0, 1⟩, ⟨0, 0, 0, 0⟩⟩)
  | .qutr => .val (.qutr ⟨⟨0, 0, 0, 1⟩, ⟨0, 0, 0⟩⟩)

/-- `a * b`: tf.py:605-611 `Quat.__mul__`, 714-718 `RotMat.__mul__`, 833-837, 945-949, 1102-1106 for poses,
which take only their own class, and 597-603 `Quat.__rmul__` if the class of the left operand has no product.
`Vec3` on the left is left out. -/
def mul : Obj → Obj → Res Obj
  | .val (.quat q), .num k => .ok (.val (.quat (qscal q k)))
  | .val (.quat q), o => (quatOf o).map fun p => .val (.quat (qmul q p))
  | .val (.rotmat R), o => (rotmatOf o).map fun S => .val (.rotmat (mul9 R S))
  | .val (.tfm A), .val (.tfm B) => .ok (.val (.tfm (tfmMul A B)))
  | .val (.duqu A), .val (.duqu B) => .ok (.val (.duqu (duquMul A B)))
  | .val (.qutr A), .val (.qutr B) => .ok (.val (.qutr (qutrMul A B)))
  | .val (.tfm _), _ | .val (.duqu _), _ | .val (.qutr _), _ => .error .argumentError
  | .num k, .val (.quat q) => .ok (.val (.quat (qscal q k)))
  | o, .val (.quat q) => (quatOf o).map fun p => .val (.quat (qmul p q))
  | _, _ => .error .typeError

open Classical in
/-- `~a`: tf.py:431-436 `AxAng`, 645-649 `Quat`, 740-744 `RotMat`, 844-848 `TfMat`, 957-960 `DualQuat`,
1114-1116 `QuatTrans`. -/
def inv : Obj → Res Obj
  | .val (.axang a) => .ok (.val (.axang ⟨a.axis, -a.angle⟩))
  | .val (.quat q) => if qdot q q = 0 then .error .nan else .ok (.val (.quat (qinv q)))
  | .val (.rotmat R) => .ok (.val (.rotmat (transp R)))
  | .val (.tfm T) => .ok (.val (.tfm (tfmInv T)))
  | .val (.duqu S) => .ok (.val (.duqu (duquConj S)))
  | .val (.qutr E) => .ok (.val (.qutr (qutrConj E)))
  | _ => .error .typeError

/-- `a.rotate(p)`: tf.py:438-442, 663-667, 703-707, and `a.transform(p)`: 850-854, 986-990, 1118-1122. -/
def apply (a p : Obj) : Res V3 := do
  let p ← vec3Of p
  match a with
  | .val (.axang a) => .ok (axangRot a p)
  | .val (.quat q) => .ok (qrot q p)
  | .val (.rotmat R) => .ok (rot9 R p)
  | .val (.tfm T) => .ok (tfmTf T p)
  | .val (.duqu S) => .ok (duquTf S p)
  | .val (.qutr E) => .ok (qutrTf E p)
  | _ => .error .attributeError

/-- `a.rotation = r`: tf.py:861-863, 1052-1056, 1169-1171; the object afterwards. -/
def setRotation (a r : Obj) : Res Obj :=
  match a with
  | .val (.tfm T) => (rotmatOf r).map fun R => .val (.tfm ⟨R, T.v⟩)
  | .val (.duqu S) => (quatOf r).map fun q => .val (.duqu (qutr2duqu ⟨q, duquTrans S⟩))
  | .val (.qutr E) => (quatOf r).map fun q => .val (.qutr ⟨q, E.v⟩)
  | _ => .error .attributeError

/-- `a.translation = v`: tf.py:870-872, 1058-1062, 1178-1180; the object afterwards. -/
def setTranslation (a v : Obj) : Res Obj :=
  match a with
  | .val (.tfm T) => (vec3Of v).map fun v => .val (.tfm ⟨T.R, v⟩)
  | .val (.duqu S) => (vec3Of v).map fun v => .val (.duqu (qutr2duqu ⟨S.real, v⟩))
  | .val (.qutr E) => (vec3Of v).map fun v => .val (.qutr ⟨E.q, v⟩)
  | _ => .error .attributeError

end

end Verif.Py
