import Verif.Model.Tfp

/-!
# The planar pose classes of C++ (include/amino/tf/planar.hpp)

As in `Verif.Model.Spatial`: one value for every object, and the constructors, operators and member
functions in terms of the functions of src/tf/tfp.c (`Verif.Model.Tfp`).  Overloads for a pointer and for a
reference, and for complex numbers of C and of C++, are one case.
-/

namespace Verif.Tfp.Cpp

noncomputable section

/-- A value of `AngleP`, `Cmplx`, `RotMatP`, `CmplxTran`, `TfMatP`, or of the C structure it derives
from. -/
inductive Val
  | ang (t : ℝ)
  | cmplx (c : Cx)
  | rotmat (R : R2)
  | cv (c v : Cx)
  | tfm (T : T2)

/-- The classes. -/
inductive Ty
  | ang | cmplx | rotmat | cv | tfm
  deriving DecidableEq

/-- planar.hpp:260-269 `RotMatP::from_rotmatp`: the arguments are given by rows, the array is by
columns. -/
def rotmatOf (r11 r12 r21 r22 : ℝ) : R2 := ⟨r11, r21, r12, r22⟩

/-- planar.hpp:272-275 `RotMatP::from_rotmatp` of an array. -/
def rotmatFrom (R : R2) : R2 := rotmatOf R.m0 R.m2 R.m1 R.m3

/-- Default constructors; `junk` is what the memory of an `AngleP` contains. -/
inductive Default (junk : ℝ) : Ty → Val → Prop
  /-- 139 -/
  | ang : Default junk .ang (.ang junk)
  /-- 230, 305-308; planar.h:74 -/
  | rotmat : Default junk .rotmat (.rotmat (rotmatFrom ⟨1, 0, 0, 1⟩))
  /-- 329, 354-367; planar.h:78 -/
  | cv : Default junk .cv (.cv ⟨1, 0⟩ ⟨0, 0⟩)
  /-- 438, 468-478; planar.h:81 -/
  | tfm : Default junk .tfm (.tfm ⟨⟨1, 0, 0, 1⟩, ⟨0, 0⟩⟩)

/-- planar.hpp:212 `Cmplx::ident`. -/
def cmplxIdent : Cx := ⟨1, 0⟩

/-- Constructors with one argument. -/
inductive Conv : Ty → Val → Val → Prop
  /-- 142 -/
  | angAng (t : ℝ) : Conv .ang (.ang t) (.ang t)
  /-- 145-148 -/
  | angCmplx (c : Cx) : Conv .ang (.cmplx c) (.ang (culn c))
  /-- 151-154 -/
  | angRotmat (R : R2) : Conv .ang (.rotmat R) (.ang (rotmatp2angle R))
  /-- 175-178 -/
  | cmplxCmplx (c : Cx) : Conv .cmplx (.cmplx c) (.cmplx c)
  /-- 181-184, 198-205 -/
  | cmplxRotmat (R : R2) : Conv .cmplx (.rotmat R) (.cmplx (rotmatp2cmplx R))
  /-- 187-195, 207-209 -/
  | cmplxAng (t : ℝ) : Conv .cmplx (.ang t) (.cmplx (cpexp t))
  /-- 233-235 -/
  | rotmatRotmat (R : R2) : Conv .rotmat (.rotmat R) (.rotmat R)
  /-- 242-244, 278-294 -/
  | rotmatCmplx (c : Cx) : Conv .rotmat (.cmplx c) (.rotmat (cmplx2rotmatp c))
  /-- 246-257, 296-302 -/
  | rotmatAng (t : ℝ) : Conv .rotmat (.ang t) (.rotmat (angle2rotmatp t))
  /-- 345-347, 404-406 -/
  | cvCv (c v : Cx) : Conv .cv (.cv c v) (.cv c v)
  /-- 349-351, 384-388, 408-410 -/
  | cvTfm (T : T2) : Conv .cv (.tfm T) (.cv (tfmatp2cv T).1 (tfmatp2cv T).2)
  /-- 459-461 -/
  | tfmTfm (T : T2) : Conv .tfm (.tfm T) (.tfm T)
  /-- 463-465, 544-547 -/
  | tfmCv (c v : Cx) : Conv .tfm (.cv c v) (.tfm (cv2tfmatp c v))

/-- Constructors from a rotation and a translation. -/
inductive Pair : Ty → Val → Cx → Val → Prop
  /-- 331-333, 370-381 -/
  | cvCmplx (c v : Cx) : Pair .cv (.cmplx c) v (.cv c v)
  /-- 335-339, 391-401 -/
  | cvAng (t : ℝ) (v : Cx) : Pair .cv (.ang t) v (.cv (cpexp t) v)
  /-- 341-343, 413-423 -/
  | cvRotmat (R : R2) (v : Cx) : Pair .cv (.rotmat R) v (.cv (rotmatp2cmplx R) v)
  /-- 441-445, 506-516 -/
  | tfmRotmat (R : R2) (v : Cx) : Pair .tfm (.rotmat R) v (.tfm ⟨R, v⟩)
  /-- 447-449, 481-492, 519-526 -/
  | tfmCmplx (c v : Cx) : Pair .tfm (.cmplx c) v (.tfm ⟨cmplx2rotmatp c, v⟩)
  /-- 452-456, 529-541 -/
  | tfmAng (t : ℝ) (v : Cx) : Pair .tfm (.ang t) v (.tfm ⟨cmplx2rotmatp (cpexp t), v⟩)

/-- planar.hpp:571-579, 595-612 `operator*` of two poses. -/
inductive Mul : Val → Val → Val → Prop
  | rotmat (A B : R2) : Mul (.rotmat A) (.rotmat B) (.rotmat (rotmatpMul A B))
  | tfm (A B : T2) : Mul (.tfm A) (.tfm B) (.tfm (tfmatpMul A B))
  | cv (c v c' v' : Cx) : Mul (.cv c v) (.cv c' v') (.cv (cvMul c v c' v').1 (cvMul c v c' v').2)

/-- planar.hpp:557-569, 580-592 `operator*` of a pose and a vector. -/
inductive Apply : Val → Cx → Cx → Prop
  | cmplx (c p : Cx) : Apply (.cmplx c) p (crot c p)
  | rotmat (R : R2) (p : Cx) : Apply (.rotmat R) p (rotmatpRot R p)
  | tfm (T : T2) (p : Cx) : Apply (.tfm T) p (tfmatpTf T p)
  | cv (c v p : Cx) : Apply (.cv c v) p (cvTf c v p)

/-- planar.hpp:221 `Cmplx::conj`, 317-321 `RotMatP::inv`, 426-430 `CmplxTran::inv`, 550-554
`TfMatP::inv`. -/
inductive Inv : Val → Val → Prop
  | cmplx (c : Cx) : Inv (.cmplx c) (.cmplx (cconj c))
  | rotmat (R : R2) : Inv (.rotmat R) (.rotmat (rotmatpInv2 R))
  | cv (c v : Cx) : Inv (.cv c v) (.cv (cvInv c v).1 (cvInv c v).2)
  | tfm (T : T2) : Inv (.tfm T) (.tfm (tfmatpInv2 T))

/-- planar.hpp:157-160 `AngleP::angle`, 215-218 `Cmplx::angle`, `Cmplx::uln`, 311-314 `RotMatP::angle`,
`RotMatP::uln`. -/
inductive Angle : Val → ℝ → Prop
  | ang (t : ℝ) : Angle (.ang t) t
  | cmplx (c : Cx) : Angle (.cmplx c) (culn c)
  | rotmat (R : R2) : Angle (.rotmat R) (rotmatp2angle R)

end

end Verif.Tfp.Cpp
