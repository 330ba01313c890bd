import Verif.Model.TfConv

/-!
# Orientations and transforms of the Lisp library

lisp/tf-op.lisp:151-562 and lisp/tf-type.lisp:172-278: the generic functions that convert
orientations to one another and to transforms. A generic function is a match over the kind of its
argument; `none` is the error when no method applies.

Simplified: numbers are reals. Arrays and lists, which are taken for the components they hold, are
left out. Matrices are of size 3×3. The foreign functions called are the models of Tf and TfConv.
-/

namespace Verif.LispTf

open Verif.Tf

noncomputable section

/-- The kinds of orientations, lisp/tf-type.lisp:172-267; `null` is `nil`. -/
inductive Ori where
  | null
  | cplx (re im : ℝ)
  | quat (q : Quat)
  | axang (a : Axang)
  | ang (a : Ax) (t : ℝ)
  | eul (z y x : ℝ)
  | mat (R : M3)

/-- lisp/tf-type.lisp:176-179 `axis-angle*`; `none` where the division is by zero. -/
def mkAxang (x y z t : ℝ) : Option Axang :=
  let n := Real.sqrt (x * x + y * y + z * z)
  if n = 0 then none else some ⟨⟨x / n, y / n, z / n⟩, t⟩

/-- lisp/tf-type.lisp:276-278 `euler-rpy*`. -/
def mkRpy (r p y : ℝ) : Ori := .eul y p r

/-- lisp/tf-op.lisp:222-263 `quaternion`. -/
def quaternion : Ori → Quat
  | .null => ⟨0, 0, 0, 1⟩
  | .cplx re im => ⟨im, 0, 0, re⟩
  | .quat q => q
  | .axang a => axang2quat a
  | .ang a t => angle2quat a t
  | .eul z y x => euler2quat .Z .Y .X z y x
  | .mat R => rotmat2quat R

/-- lisp/tf-op.lisp:265-269 `inverse` of orientations. -/
def inverseO : Ori → Option Quat
  | .quat q => some (qinv q)
  | .ang a t => some (qinv (quaternion (.ang a t)))
  | _ => none

/-- lisp/tf-op.lisp:277-289 `axis-angle`. -/
def axisAngle : Ori → Option Axang
  | .quat q => some (quat2axang q)
  | .ang .X t => mkAxang 1 0 0 t
  | .ang .Y t => mkAxang 0 1 0 t
  | .ang .Z t => mkAxang 0 0 1 t
  | _ => none

/-- lisp/tf-op.lisp:318-345 `euler-zyx`; the angles about z, y and x. -/
def eulerZyx : Ori → Option (ℝ × ℝ × ℝ)
  | .null => some (0, 0, 0)
  | .quat q => quat2eulerzyx q
  | .ang .X t => some (0, 0, t)
  | .ang .Y t => some (0, t, 0)
  | .ang .Z t => some (t, 0, 0)
  | _ => none

/-- lisp/tf-op.lisp:483-492 `rotation-matrix`. -/
def rotationMatrix : Ori → Option M3
  | .quat q => some (quat2rotmat q)
  | .axang a => some (rotmatExpAa a)
  | .ang a t => some (angle2rotmat a t)
  | _ => none

/-- lisp/tf-op.lisp:428-464 `quaternion-translation`, which is `tf` (185-187), of orientations. -/
def tf1 : Ori → Option Qutr
  | .null => some ⟨quaternion .null, ⟨0, 0, 0⟩⟩
  | .quat q => some ⟨q, ⟨0, 0, 0⟩⟩
  | .ang .X t => some ⟨angle2quat .X t, ⟨0, 0, 0⟩⟩
  | .ang .Y t => some ⟨angle2quat .Y t, ⟨0, 0, 0⟩⟩
  | .ang .Z t => some ⟨angle2quat .Y t, ⟨0, 0, 0⟩⟩
  | .axang a => some ⟨axang2quat a, ⟨0, 0, 0⟩⟩
  | .eul z y x => some ⟨euler2quat .Z .Y .X z y x, ⟨0, 0, 0⟩⟩
  | _ => none

/-- lisp/tf-op.lisp:196-199 `tf*`; 466-472 `quaternion-translation-2`. -/
def tf2 (r : Ori) (v : V3) : Qutr := ⟨quaternion r, v⟩

/-- lisp/tf-op.lisp:372-377 `dual-quaternion` of orientations. -/
def duqu1 : Ori → Option Duqu
  | .null => some ⟨⟨0, 0, 0, 1⟩, ⟨0, 0, 0, 0⟩⟩
  | .quat q => some ⟨q, ⟨0, 0, 0, 0⟩⟩
  | _ => none

/-- lisp/tf-op.lisp:388-401 `dual-quaternion-2`. -/
def duqu2 (r : Ori) (v : V3) : Option Duqu :=
  match r with
  | .quat _ | .ang _ _ | .eul _ _ _ | .axang _ | .mat _ => some (qutr2duqu ⟨quaternion r, v⟩)
  | _ => none

/-- lisp/tf-op.lisp:511-524 `generic*` of orientations. -/
def mulO : Ori → Ori → Option Quat
  | .quat a, .quat b => some (qmul a b)
  | .quat a, .axang b => some (qmul a (quaternion (.axang b)))
  | .quat a, .ang b t => some (qmul a (quaternion (.ang b t)))
  | .ang a s, .ang b t => some (qmul (quaternion (.ang a s)) (quaternion (.ang b t)))
  | .quat a, .eul z y x => some (qmul a (quaternion (.eul z y x)))
  | _, _ => none

/-- lisp/tf-op.lisp:539-562 `transform` by an orientation. -/
def transformPt (o : Ori) (p : V3) : Option V3 :=
  match o with
  | .quat q => some (qrot q p)
  | .mat R => some (rot9 R p)
  | .ang a t => (rotationMatrix (.ang a t)).map fun R => rot9 R p
  | .eul z y x => (rotationMatrix (.eul z y x)).map fun R => rot9 R p
  | _ => none

/-- A human-readable transform, lisp/tf-op.lisp:151-153. -/
structure Readable where
  z : ℝ
  y : ℝ
  x : ℝ
  v : V3

/-- lisp/tf-op.lisp:155-164 `tf-readable*`, `tf-readable` of a transform. -/
def readable (E : Qutr) : Option Readable :=
  (eulerZyx (.quat E.q)).map fun e => ⟨e.1, e.2.1, e.2.2, E.v⟩

/-- lisp/tf-op.lisp:411-413 `quaternion-translation` of a human-readable transform. -/
def ofReadable (r : Readable) : Qutr := ⟨quaternion (.eul r.z r.y r.x), r.v⟩

/-- lisp/tf-op.lisp:166-175 `print-object` of a human-readable transform, and what the form printed
evaluates to. -/
def reread (r : Readable) : Qutr := tf2 (mkRpy r.x r.y r.y) r.v

end

end Verif.LispTf
