import Mathlib.Algebra.Field.Defs
import Verif.Model.Mat

/-!
# Vector and matrix expressions (include/amino/mat.hpp)

The C++ operators build trees (expression templates) that the assignment evaluates.  `VSrc` and `MSrc`
are the expressions as written, `VExp` and `MExp` the trees, and `VEl` and `MEl` relate them: one
constructor for every overload.  Which overload is chosen when several apply is left open (any).
`e * alpha` is written as `alpha * e`: the overloads for it call the others.  `DMat::inverse` is left
out.
-/

namespace Verif.Mat

variable {K : Type} [CommRing K]

/-- A matrix expression as written. -/
inductive MSrc (K : Type)
  | mat (A : DMat)
  | t (A : DMat)
  | smul (alpha : K) (e : MSrc K)
  | mul (e e' : MSrc K)
  | add (e e' : MSrc K)

/-- A vector expression as written. -/
inductive VSrc (K : Type)
  | vec (x : DVec)
  | smul (alpha : K) (e : VSrc K)
  | add (e e' : VSrc K)
  | mul (M : MSrc K) (e : VSrc K)

/-- include/amino/mat.hpp:179-259 `aa_dvec`, `DVecExpScal`, `DVecExpAxpy`, `DVecExpMV1`,
`DVecExpMV2`. -/
inductive VExp (K : Type)
  | leaf (x : DVec)
  | scal (alpha : K) (x : VExp K)
  | axpy (alpha : K) (x : DVec) (y : VExp K)
  | mv1 (trans : Bool) (alpha : K) (A : DMat) (x : DVec)
  | mv2 (trans : Bool) (alpha : K) (A : DMat) (x : DVec) (beta : K) (y : VExp K)

/-- include/amino/mat.hpp:261-341 `aa_dmat`, `DMatExpScal`, `DMatExpMM1`, `DMatExpMM2`,
`DMatExpTranspose`. -/
inductive MExp (K : Type)
  | leaf (A : DMat)
  | scal (alpha : K) (x : MExp K)
  | mm1 (ta tb : Bool) (alpha : K) (A B : DMat)
  | mm2 (ta tb : Bool) (alpha : K) (A B : DMat) (beta : K) (C : MExp K)
  | trans (A : DMat)

/-- include/amino/mat.hpp:158-166 `VecEval`, 188-191, 204-207, 226-228, 255-258 and 469-471 `eval`. -/
def VExp.eval (y : DVec) : VExp K → Mem K → Option (Mem K)
  | .leaf x, m => vcopy x y m
  | .scal alpha e, m => (VExp.eval y e m).map (vscal alpha y)
  | .axpy alpha x e, m => (VExp.eval y e m).bind (vaxpy alpha x y)
  | .mv1 t alpha A x, m => gemv t alpha A x 0 y m
  | .mv2 t alpha A x beta e, m => (VExp.eval y e m).bind (gemv t alpha A x beta y)

/-- include/amino/mat.hpp:168-176 `MatEval`, 269-272, 294-296, 325-328, 338-340 and 795-797 `eval`. -/
def MExp.eval (Y : DMat) : MExp K → Mem K → Option (Mem K)
  | .leaf A, m => mcopy A Y m
  | .scal alpha e, m => (MExp.eval Y e m).map (mscal Y alpha)
  | .mm1 ta tb alpha A B, m => gemm ta tb alpha A B 0 Y m
  | .mm2 ta tb alpha A B beta e, m => (MExp.eval Y e m).bind (gemm ta tb alpha A B beta Y)
  | .trans A, m => mtrans A Y m

/-- A factor of a matrix product: `aa_dmat` or `DMatExpTranspose`. -/
inductive Fac : MSrc K → Bool → DMat → Prop
  | mat (A : DMat) : Fac (.mat A) false A
  | t (A : DMat) : Fac (.t A) true A

/-- The overloads for matrices, with the lines of include/amino/mat.hpp. -/
inductive MEl : MSrc K → MExp K → Prop
  | mat (A : DMat) : MEl (.mat A) (.leaf A)
  /-- 806-812 `transpose`, `t` -/
  | t (A : DMat) : MEl (.t A) (.trans A)
  /-- 1115-1123 -/
  | scalScal {s : MSrc K} {beta : K} {e : MExp K} (alpha : K) : MEl s (.scal beta e) →
      MEl (.smul alpha s) (.scal (alpha * beta) e)
  /-- 1105-1113, 1125-1145 -/
  | scalExp {s : MSrc K} {e : MExp K} (alpha : K) : MEl s e → MEl (.smul alpha s) (.scal alpha e)
  /-- 1276-1294 -/
  | mul {s s' : MSrc K} {ta tb : Bool} {A B : DMat} : Fac s ta A → Fac s' tb B →
      MEl (.mul s s') (.mm1 ta tb 1 A B)
  /-- 1297-1305 -/
  | scalMm1 {s : MSrc K} {ta tb : Bool} {beta : K} {A B : DMat} (alpha : K) :
      MEl s (.mm1 ta tb beta A B) → MEl (.smul alpha s) (.mm1 ta tb (alpha * beta) A B)
  /-- 1309-1319: the scaled factor is `alpha * A` or `alpha * A.t()` -/
  | mulScalFac {s s' : MSrc K} {ta tb : Bool} {A B : DMat} (alpha : K) : Fac s ta A → Fac s' tb B →
      MEl (.mul (.smul alpha s) s') (.mm1 ta tb (alpha * 1) A B)
  /-- 1321-1331 -/
  | mulFacScal {s s' : MSrc K} {ta tb : Bool} {A B : DMat} (beta : K) : Fac s ta A → Fac s' tb B →
      MEl (.mul s (.smul beta s')) (.mm1 ta tb (beta * 1) A B)
  /-- 1333-1338 -/
  | mulScalScal {s s' : MSrc K} {ta tb : Bool} {A B : DMat} (alpha beta : K) : Fac s ta A → Fac s' tb B →
      MEl (.mul (.smul alpha s) (.smul beta s')) (.mm1 ta tb (alpha * beta * 1) A B)
  /-- 1342-1347, 1352-1357 -/
  | addMm1 {s s' : MSrc K} {ta tb : Bool} {alpha : K} {A B : DMat} {e : MExp K} :
      MEl s (.mm1 ta tb alpha A B) → MEl s' e → MEl (.add s s') (.mm2 ta tb alpha A B 1 e)
  /-- 1349-1350, 1359-1360 -/
  | addMm1' {s s' : MSrc K} {ta tb : Bool} {alpha : K} {A B : DMat} {e : MExp K} :
      MEl s e → MEl s' (.mm1 ta tb alpha A B) → MEl (.add s s') (.mm2 ta tb alpha A B 1 e)
  /-- 1363-1368 -/
  | addMm1Scal {s s' : MSrc K} {ta tb : Bool} {alpha beta : K} {A B : DMat} {e : MExp K} :
      MEl s (.mm1 ta tb alpha A B) → MEl s' (.scal beta e) →
      MEl (.add s s') (.mm2 ta tb alpha A B beta e)
  /-- 1370-1373 -/
  | addScalMm1 {s s' : MSrc K} {ta tb : Bool} {alpha beta : K} {A B : DMat} {e : MExp K} :
      MEl s (.scal beta e) → MEl s' (.mm1 ta tb alpha A B) →
      MEl (.add s s') (.mm2 ta tb alpha A B beta e)
  /-- 1375-1385 -/
  | scalMm2 {s : MSrc K} {ta tb : Bool} {alpha' beta : K} {A B : DMat} {e : MExp K} (alpha : K) :
      MEl s (.mm2 ta tb alpha' A B beta e) →
      MEl (.smul alpha s) (.mm2 ta tb (alpha * alpha') A B (alpha * beta) e)

/-- The overloads for vectors, with the lines of include/amino/mat.hpp. -/
inductive VEl : VSrc K → VExp K → Prop
  | vec (x : DVec) : VEl (.vec x) (.leaf x)
  /-- 1086-1092 -/
  | scalScal {s : VSrc K} {beta : K} {e : VExp K} (alpha : K) : VEl s (.scal beta e) →
      VEl (.smul alpha s) (.scal (alpha * beta) e)
  /-- 1077-1083, 1095-1101 -/
  | scalExp {s : VSrc K} {e : VExp K} (alpha : K) : VEl s e → VEl (.smul alpha s) (.scal alpha e)
  /-- 1148-1162 -/
  | addVec {s : VSrc K} {e : VExp K} (x : DVec) : VEl s e → VEl (.add (.vec x) s) (.axpy 1 x e)
  /-- 1164-1165 -/
  | addVec' {s : VSrc K} {e : VExp K} (x : DVec) : VEl s e → VEl (.add s (.vec x)) (.axpy 1 x e)
  /-- 1169-1172 -/
  | addScal {s s' : VSrc K} {e : VExp K} {alpha : K} {x : DVec} : VEl s (.scal alpha (.leaf x)) →
      VEl s' e → VEl (.add s s') (.axpy alpha x e)
  /-- 1174-1182 -/
  | addScal' {s s' : VSrc K} {e : VExp K} {alpha : K} {x : DVec} : VEl s e →
      VEl s' (.scal alpha (.leaf x)) → VEl (.add s s') (.axpy alpha x e)
  /-- 1187-1190 -/
  | mv (A : DMat) (x : DVec) : VEl (.mul (.mat A) (.vec x)) (.mv1 false 1 A x)
  /-- 1192-1200 -/
  | scalMv1 {s : VSrc K} {t : Bool} {beta : K} {A : DMat} {x : DVec} (alpha : K) :
      VEl s (.mv1 t beta A x) → VEl (.smul alpha s) (.mv1 t (alpha * beta) A x)
  /-- 1202-1205 -/
  | mvT (A : DMat) (x : DVec) : VEl (.mul (.t A) (.vec x)) (.mv1 true 1 A x)
  /-- 1207-1210 -/
  | mvTScal {s : VSrc K} {alpha : K} {x : DVec} (A : DMat) : VEl s (.scal alpha (.leaf x)) →
      VEl (.mul (.t A) s) (.mv1 true (alpha * 1) A x)
  /-- 1212-1215 -/
  | mvScal {M : MSrc K} {alpha : K} {A : DMat} (x : DVec) : MEl M (.scal alpha (.leaf A)) →
      VEl (.mul M (.vec x)) (.mv1 false (alpha * 1) A x)
  /-- 1217-1220 -/
  | mvVecScal {s : VSrc K} {alpha : K} {x : DVec} (A : DMat) : VEl s (.scal alpha (.leaf x)) →
      VEl (.mul (.mat A) s) (.mv1 false (alpha * 1) A x)
  /-- 1222-1225 -/
  | mvScalScal {M : MSrc K} {s : VSrc K} {alpha beta : K} {A : DMat} {x : DVec} :
      MEl M (.scal alpha (.leaf A)) → VEl s (.scal beta (.leaf x)) →
      VEl (.mul M s) (.mv1 false (alpha * beta * 1) A x)
  /-- 1229-1233, 1242-1245 -/
  | addMv1 {s s' : VSrc K} {t : Bool} {alpha : K} {A : DMat} {x : DVec} {e : VExp K} :
      VEl s (.mv1 t alpha A x) → VEl s' e → VEl (.add s s') (.mv2 t alpha A x 1 e)
  /-- 1235-1239, 1247-1250 -/
  | addMv1' {s s' : VSrc K} {t : Bool} {alpha : K} {A : DMat} {x : DVec} {e : VExp K} :
      VEl s e → VEl s' (.mv1 t alpha A x) → VEl (.add s s') (.mv2 t alpha A x 1 e)
  /-- 1252-1255 -/
  | addMv1Scal {s s' : VSrc K} {t : Bool} {alpha beta : K} {A : DMat} {x : DVec} {e : VExp K} :
      VEl s (.mv1 t alpha A x) → VEl s' (.scal beta e) → VEl (.add s s') (.mv2 t alpha A x beta e)
  /-- 1257-1260 -/
  | addScalMv1 {s s' : VSrc K} {t : Bool} {alpha beta : K} {A : DMat} {x : DVec} {e : VExp K} :
      VEl s (.scal beta e) → VEl s' (.mv1 t alpha A x) → VEl (.add s s') (.mv2 t alpha A x beta e)
  /-- 1262-1271 -/
  | scalMv2 {s : VSrc K} {t : Bool} {alpha' beta : K} {A : DMat} {x : DVec} {e : VExp K} (alpha : K) :
      VEl s (.mv2 t alpha' A x beta e) →
      VEl (.smul alpha s) (.mv2 t (alpha * alpha') A x (alpha * beta) e)

/-- include/amino/mat.hpp:502-505 `DVec::operator*=`. -/
def timesEq (alpha : K) (y : DVec) (m : Mem K) : Mem K := vscal alpha y m

/-- include/amino/mat.hpp:507-510 `DVec::operator/=`. -/
def divideEq {F : Type} [Field F] (alpha : F) (y : DVec) (m : Mem F) : Mem F := vscal (1 / alpha) y m

/-- include/amino/mat.hpp:512-515 `DVec::operator+=` of a vector. -/
def plusEq (x y : DVec) (m : Mem K) : Option (Mem K) := vaxpy 1 x y m

/-- include/amino/mat.hpp:517-520 `DVec::operator-=` of a vector. -/
def minusEq (x y : DVec) (m : Mem K) : Option (Mem K) := vaxpy (-1) x y m

/-- include/amino/mat.hpp:522-525 `DVec::operator+=` of a scaled vector. -/
def plusEqScal (alpha : K) (x y : DVec) (m : Mem K) : Option (Mem K) := vaxpy alpha x y m

/-- include/amino/mat.hpp:527-530 `DVec::operator-=` of a scaled vector. -/
def minusEqScal (alpha : K) (x y : DVec) (m : Mem K) : Option (Mem K) := vaxpy (-alpha) x y m

/-- include/amino/mat.hpp:785-788 `DMat::operator*=`. -/
def matTimesEq (alpha : K) (A : DMat) (m : Mem K) : Mem K := mscal A alpha m

/-- Assigning a `DMat` to the `DMat` object that holds the view `A`: include/amino/mat.hpp:799-803 is a
template, so the implicitly declared copy assignment is chosen, which copies the members.  The new view
and memory. -/
def assignDMat (_A B : DMat) (m : Mem K) : DMat × Mem K := (B, m)

end Verif.Mat
