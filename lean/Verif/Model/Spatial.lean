import Verif.Model.TfVel

/-!
# The pose classes of C++ (include/amino/tf/spatial.hpp)

One value for every object of the classes, and one function or relation for the constructors, the
operators and the member functions, in terms of the functions of src/tf, which are modelled in
`Verif.Model.Tf`, `Verif.Model.TfConv` and `Verif.Model.TfVel`.  The overloads for a pointer and for a
reference to the same type are one case here.  `none` stands for a constructor that produces no object: a
division by zero, a write outside of the object, or a recursion that does not end.  `from_dx`, and the
static functions for rotation vectors, are left out.
-/

namespace Verif.Tf.Cpp

noncomputable section

/-- A value of one of the classes `Vec3`, `XAngle`, `YAngle`, `ZAngle`, `Quat`, `RotMat`, `AxisAngle`,
`DualQuat`, `QuatTran`, `TfMat`, or of the C structures that they derive from. -/
inductive Val
  | vec (v : V3)
  | ang (a : Ax) (t : ℝ)
  | quat (q : Quat)
  | rotmat (R : M3)
  | axang (a : Axang)
  | duqu (S : Duqu)
  | qutr (E : Qutr)
  | tfm (T : Tfm)

/-- The classes with constructors for rotations and poses. -/
inductive Ty
  | quat | rotmat | axang | duqu | qutr | tfm
  deriving DecidableEq

/-- spatial.hpp:408-425 `RotMat::from_rotmat`: the arguments are given by rows, the array is by
columns. -/
def rotmatOf (r11 r12 r13 r21 r22 r23 r31 r32 r33 : ℝ) : M3 :=
  ⟨r11, r21, r31, r12, r22, r32, r13, r23, r33⟩

/-- spatial.hpp:576-581 `AxisAngle::from_axang` of components. -/
def axangOf (x y z theta : ℝ) : Option Axang :=
  let n := Real.sqrt (x * x + y * y + z * z)
  if n = 0 then none else some ⟨⟨x / n, y / n, z / n⟩, theta⟩

mutual
/-- spatial.hpp:628 `DualQuat::DualQuat`, with at most `n` nested calls. -/
def dqDefault : Nat → Option Duqu
  | 0 => none
  | n + 1 => dqFromXyzw n ⟨0, 0, 0, 1⟩ ⟨0, 0, 0, 0⟩
/-- spatial.hpp:748-756 `DualQuat::from_xyzw`, which declares a `DualQuat`. -/
def dqFromXyzw : Nat → Quat → Quat → Option Duqu
  | 0, _, _ => none
  | n + 1, r, d => (dqDefault n).map fun _ => ⟨r, d⟩
end

/-- spatial.hpp:761-766 `DualQuat::from_duqu`. -/
def dqFromDuqu (n : Nat) (S : Duqu) : Option Duqu := (dqDefault n).map fun _ => S

/-- spatial.hpp:772-777 `DualQuat::from_qv`. -/
def dqFromQv (n : Nat) (q : Quat) (v : V3) : Option Duqu := (dqDefault n).map fun _ => qutr2duqu ⟨q, v⟩

/-- spatial.hpp:782-787 `DualQuat::from_tfmat`. -/
def dqFromTfmat (n : Nat) (T : Tfm) : Option Duqu := (dqDefault n).map fun _ => tfmat2duqu T

/-- spatial.hpp:792-817 `DualQuat::from_xxyz`, `from_yxyz`, `from_zxyz`; they call
src/tff.F90:2903-2940. -/
def dqFromAngle (n : Nat) (a : Ax) (t : ℝ) (v : V3) : Option Duqu :=
  (dqDefault n).map fun _ => qutr2duqu ⟨angle2quat a t, v⟩

/-- spatial.hpp:823-828 `DualQuat::from_xyz`; src/tf/quat_duqu.c:413-428 `aa_tf_xyz2duqu`. -/
def dqFromXyz (n : Nat) (v : V3) : Option Duqu :=
  (dqDefault n).map fun _ => ⟨⟨0, 0, 0, 1⟩, ⟨v.x / 2, v.y / 2, v.z / 2, 0⟩⟩

/-- spatial.hpp:728-733 `DualQuat::conj`. -/
def dqConj (n : Nat) (S : Duqu) : Option Duqu := (dqDefault n).map fun _ => duquConj S

/-- The doubles of a dual quaternion in memory (spatial.h, `struct aa_tf_duqu`). -/
def duquArray (S : Duqu) : List ℝ :=
  [S.real.x, S.real.y, S.real.z, S.real.w, S.dual.x, S.dual.y, S.dual.z, S.dual.w]

/-- Filling the seven doubles of a `struct aa_tf_qv`: anything longer is written outside of it. -/
def qvStore : List ℝ → Option Qutr
  | [a, b, c, d, x, y, z] => some ⟨⟨a, b, c, d⟩, ⟨x, y, z⟩⟩
  | _ => none

/-- spatial.hpp:978-983 `QuatTran::from_tfmat`. -/
def qvFromTfmat (T : Tfm) : Option Qutr := qvStore (duquArray (tfmat2duqu T))

/-- Default constructors: spatial.hpp:184 `Quat`, 349 `RotMat`, 505 `AxisAngle`, 628 `DualQuat`, 849
`QuatTran`, 1019 `TfMat`. -/
inductive Default (n : Nat) : Ty → Option Val → Prop
  | quat : Default n .quat (some (.quat ⟨0, 0, 0, 1⟩))
  | rotmat : Default n .rotmat (some (.rotmat (rotmatOf 1 0 0 0 1 0 0 0 1)))
  | axang : Default n .axang ((axangOf 0 0 1 0).map .axang)
  | duqu : Default n .duqu ((dqDefault n).map .duqu)
  | qutr : Default n .qutr (some (.qutr ⟨⟨0, 0, 0, 1⟩, ⟨0, 0, 0⟩⟩))
  | tfm : Default n .tfm (some (.tfm tfmident))

/-- Constructors with one argument that stands for a rotation or a pose, in at most `n` nested calls. -/
inductive Conv (n : Nat) : Ty → Val → Option Val → Prop
  /-- 189-194 -/
  | quatQuat (q : Quat) : Conv n .quat (.quat q) (some (.quat q))
  /-- 199-204 -/
  | quatRotmat (R : M3) : Conv n .quat (.rotmat R) (some (.quat (rotmat2quat R)))
  /-- 209-214 -/
  | quatAxang (a : Axang) : Conv n .quat (.axang a) (some (.quat (axang2quat a)))
  /-- 219-229 -/
  | quatAng (a : Ax) (t : ℝ) : Conv n .quat (.ang a t) (some (.quat (angle2quat a t)))
  /-- 354-359 -/
  | rotmatQuat (q : Quat) : Conv n .rotmat (.quat q) (some (.rotmat (quat2rotmat q)))
  /-- 364-369 -/
  | rotmatRotmat (R : M3) : Conv n .rotmat (.rotmat R) (some (.rotmat R))
  /-- 374-379 -/
  | rotmatAxang (a : Axang) : Conv n .rotmat (.axang a) (some (.rotmat (rotmatExpAa a)))
  /-- 384-394 -/
  | rotmatAng (a : Ax) (t : ℝ) : Conv n .rotmat (.ang a t) (some (.rotmat (angle2rotmat a t)))
  /-- 510-515 -/
  | axangQuat (q : Quat) : Conv n .axang (.quat q) (some (.axang (quat2axang q)))
  /-- 520-525 -/
  | axangRotmat (R : M3) : Conv n .axang (.rotmat R) ((rotmat2axang R).map .axang)
  /-- 530-535 -/
  | axangAxang (a : Axang) : Conv n .axang (.axang a) (some (.axang a))
  /-- 633-643 -/
  | duquDuqu (S : Duqu) : Conv n .duqu (.duqu S) ((dqFromDuqu n S).map .duqu)
  /-- 648-658 -/
  | duquQutr (E : Qutr) : Conv n .duqu (.qutr E) ((dqFromQv n E.q E.v).map .duqu)
  /-- 679-684 -/
  | duquTfm (T : Tfm) : Conv n .duqu (.tfm T) ((dqFromTfmat n T).map .duqu)
  /-- 713-715 -/
  | duquVec (v : V3) : Conv n .duqu (.vec v) ((dqFromXyz n v).map .duqu)
  /-- 854-863 -/
  | qutrQutr (E : Qutr) : Conv n .qutr (.qutr E) (some (.qutr E))
  /-- 908-913 -/
  | qutrDuqu (S : Duqu) : Conv n .qutr (.duqu S) (some (.qutr (duqu2qutr S)))
  /-- 918-923 -/
  | qutrTfm (T : Tfm) : Conv n .qutr (.tfm T) ((qvFromTfmat T).map .qutr)
  /-- 1024-1029 -/
  | tfmTfm (T : Tfm) : Conv n .tfm (.tfm T) (some (.tfm T))
  /-- 1034-1039 -/
  | tfmDuqu (S : Duqu) : Conv n .tfm (.duqu S) (some (.tfm (duqu2tfmat S)))
  /-- 1044-1053 -/
  | tfmQutr (E : Qutr) : Conv n .tfm (.qutr E) (some (.tfm (qutr2tfmat E)))

/-- Constructors from a rotation and a translation. -/
inductive Pair (n : Nat) : Ty → Val → V3 → Option Val → Prop
  /-- 663-674 -/
  | duquQuat (q : Quat) (v : V3) : Pair n .duqu (.quat q) v ((dqFromQv n q v).map .duqu)
  /-- 689-708 -/
  | duquAng (a : Ax) (t : ℝ) (v : V3) : Pair n .duqu (.ang a t) v ((dqFromAngle n a t v).map .duqu)
  /-- 720-723 -/
  | duquAxang (a : Axang) (v : V3) : Pair n .duqu (.axang a) v ((dqFromQv n (axang2quat a) v).map .duqu)
  /-- 868-879 -/
  | qutrQuat (q : Quat) (v : V3) : Pair n .qutr (.quat q) v (some (.qutr ⟨q, v⟩))
  /-- 884-904 -/
  | qutrAng (a : Ax) (t : ℝ) (v : V3) : Pair n .qutr (.ang a t) v (some (.qutr ⟨angle2quat a t, v⟩))
  /-- 1058-1069 -/
  | tfmQuat (q : Quat) (v : V3) : Pair n .tfm (.quat q) v (some (.tfm (qutr2tfmat ⟨q, v⟩)))

/-- The products of spatial.hpp:1159-1213. -/
inductive Mul : Val → Val → Val → Prop
  | rotmat (A B : M3) : Mul (.rotmat A) (.rotmat B) (.rotmat (mul9 A B))
  | quat (a b : Quat) : Mul (.quat a) (.quat b) (.quat (qmul a b))
  | tfm (A B : Tfm) : Mul (.tfm A) (.tfm B) (.tfm (tfmMul A B))
  | duqu (A B : Duqu) : Mul (.duqu A) (.duqu B) (.duqu (duquMul A B))
  | qutr (A B : Qutr) : Mul (.qutr A) (.qutr B) (.qutr (qutrMul A B))

/-- spatial.hpp:234-247 `Quat::rotate`, 988-1009 `QuatTran::transform`, 1105-1126 `TfMat::transform`,
1218-1224 `operator*` of a rotation matrix and a vector. -/
inductive Apply : Val → V3 → V3 → Prop
  | quat (q : Quat) (p : V3) : Apply (.quat q) p (qrot q p)
  | qutr (E : Qutr) (p : V3) : Apply (.qutr E) p (qutrTf E p)
  | tfm (T : Tfm) (p : V3) : Apply (.tfm T) p (tfmTf T p)
  | rotmat (R : M3) (p : V3) : Apply (.rotmat R) p (rot9 R p)

/-- `QuatTran::conj` (spatial.hpp:928-933) and `DualQuat::conj` (728-733). -/
inductive Inv (n : Nat) : Val → Option Val → Prop
  | qutr (E : Qutr) : Inv n (.qutr E) (some (.qutr (qutrConj E)))
  | duqu (S : Duqu) : Inv n (.duqu S) ((dqConj n S).map .duqu)

/-- The translation: `Vec3` of a dual quaternion or of a transformation matrix (spatial.hpp:70-85, 127-140)
and `DualQuat::translation` (738-743). -/
inductive Trans : Val → V3 → Prop
  | duqu (S : Duqu) : Trans (.duqu S) (duquTrans S)
  | tfm (T : Tfm) : Trans (.tfm T) T.v

/-- spatial.hpp:1134-1142 `operator+` of two vectors. -/
def vecAdd (a b : V3) : V3 := ⟨a.x + b.x, a.y + b.y, a.z + b.z⟩

/-- spatial.hpp:1147-1154 `operator/` of a vector and a number. -/
def vecDiv (a : V3) (b : ℝ) : V3 := ⟨a.x / b, a.y / b, a.z / b⟩

end

end Verif.Tf.Cpp
