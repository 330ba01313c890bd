import Mathlib.Algebra.Field.Defs
import Verif.Model.Mat

/-!
# Vectors and matrices of Python (python/amino/mat.py, python/amino/mixin.py)

A state holds the doubles, the variables of the program and the storage that is in use. The fields of a
`DVec` or `DMat` never change after construction, so a variable holds the fields, together with the
array that the object keeps alive: `ctypes` keeps a reference to an array that Python assigns to a
pointer field (`DVec.__init__`, `DMat.__init__`), and none when C code fills the fields (slices, rows,
columns, diagonals, blocks). Storage is in use while some variable holds an object that owns it, or while
it belongs to a temporary of the statement being run; it is never used again by the model, and a read or
write of storage that is no longer in use is undefined behaviour.

The doubles are elements of a field. `exc` is a Python exception (which one is not modelled), `abort` a
call of `aa_la_err` or an integer division by zero in C, `ub` undefined behaviour.
-/

namespace Verif.PyMat

open Verif.Mat

variable {K : Type} [Field K] [DecidableEq K]

inductive Out (α : Type) where
  | ok (a : α)
  | exc
  | abort
  | ub
deriving DecidableEq, Repr

def Out.bind {α β : Type} : Out α → (α → Out β) → Out β
  | .ok a, f => f a
  | .exc, _ => .exc
  | .abort, _ => .abort
  | .ub, _ => .ub

instance : Monad Out := { pure := Out.ok, bind := Out.bind }

/-- an array of doubles: first address and number of elements. -/
abbrev Buf := Nat × Nat

/-- python/amino/mat.py:48-52, 260-264: the fields, and the array kept in `_objects`. -/
inductive Obj where
  | vec (d : DVec) (own : Option Buf)
  | mat (d : DMat) (own : Option Buf)
deriving DecidableEq, Repr

def Obj.own : Obj → Option Buf
  | .vec _ o => o
  | .mat _ o => o

/-- the state of the interpreter. -/
structure St (K : Type) where
  mem : Mem K
  /-- the first address never used. -/
  next : Nat
  env : List (Nat × Obj)
  /-- arrays of temporaries. -/
  tmp : List Buf

def Buf.has (b : Buf) (a : Nat) : Bool := b.1 ≤ a && a < b.1 + b.2

/-- is the address in storage that is in use? -/
def St.live (s : St K) (a : Nat) : Bool :=
  (s.env.any fun p => match p.2.own with | some b => Buf.has b a | none => false) ||
  s.tmp.any fun b => Buf.has b a

def St.get (s : St K) (x : Nat) : Option Obj := s.env.lookup x

/-- binding of a variable at the end of a statement, when the temporaries are dropped. -/
def St.put (s : St K) (x : Nat) (o : Obj) : St K :=
  { s with env := (x, o) :: s.env.filter (fun p => p.1 != x), tmp := [] }

/-- end of a statement that binds no variable. -/
def St.done (s : St K) : St K := { s with tmp := [] }

/-- the elements of a vector and of a matrix. -/
def vAcc (d : DVec) : List Nat := (List.range d.len).map d.ref
def mAcc (d : DMat) : List Nat := (List.range d.cols).flatMap fun j => (List.range d.rows).map fun i => d.ref i j

/-- use of storage by C code or through a pointer. -/
def use {α : Type} (s : St K) (l : List Nat) (k : Out α) : Out α := if l.all s.live then k else .ub

/-- a C call that may end in `aa_la_err` before it uses any storage. -/
def call (s : St K) (l : List Nat) (m : Option (Mem K)) : Out (St K) :=
  match m with
  | none => .abort
  | some m => use s l (.ok { s with mem := m })

/-- mat.py:54-56, 266-268 `_alloc`: `ctypes` fills a new array with zeros. -/
def alloc (s : St K) (n : Nat) : Buf × St K :=
  ((s.next, n), { s with mem := fun a => if Buf.has (s.next, n) a then 0 else s.mem a,
                         next := s.next + n, tmp := (s.next, n) :: s.tmp })

/-- mat.py:67-68 `DVec(n)`. -/
def newVec (s : St K) (n : Nat) : DVec × St K := let (b, s1) := alloc s n; (⟨n, b.1, 1⟩, s1)

/-- mat.py:274-277 `DMat((rows, cols))`. -/
def newMat (s : St K) (m n : Nat) : DMat × St K := let (b, s1) := alloc s (m * n); (⟨m, n, b.1, m⟩, s1)

/-- the object returned by a constructor. -/
def ownVec (d : DVec) : Obj := .vec d (some (d.data, d.len))
def ownMat (d : DMat) : Obj := .mat d (some (d.data, d.rows * d.cols))

/-- mat.py:83-91 `copy_from` of a `DVec`. -/
def vCopyFrom (s : St K) (dst src : DVec) : Out (St K) :=
  if dst.len ≠ src.len then .exc else call s (vAcc src ++ vAcc dst) (vcopy src dst s.mem)

/-- mixin.py:58-65 `copy_from` of a list: the loop over `self[i] = src[i]`. -/
def fill (d : DVec) (l : List K) (m : Mem K) : Mem K :=
  forN d.len (fun k m => store m (d.ref k) (l.getD k 0)) m

/-- mat.py:83-91 `copy_from` of a list. -/
def vCopyList (s : St K) (dst : DVec) (l : List K) : Out (St K) :=
  if dst.len ≠ l.length then .exc else use s (vAcc dst) (.ok { s with mem := fill dst l s.mem })

/-- mat.py:69-72 `DVec(arg)` of a `DVec`. -/
def dupVec (s : St K) (d : DVec) : Out (DVec × St K) :=
  let (v, s1) := newVec s d.len
  (vCopyFrom s1 v d).bind fun s2 => .ok (v, s2)

/-- mat.py:69-72 `DVec(arg)` of a list. -/
def listVec (s : St K) (l : List K) : Out (DVec × St K) :=
  let (v, s1) := newVec s l.length
  (vCopyList s1 v l).bind fun s2 => .ok (v, s2)

/-- mat.py:287-292 `copy_from` of a `DMat`. -/
def mCopyFrom (s : St K) (dst src : DMat) : Out (St K) :=
  if dst.rows ≠ src.rows ∨ dst.cols ≠ src.cols then .exc
  else call s (mAcc src ++ mAcc dst) (mcopy src dst s.mem)

/-- mat.py:278-283 `DMat(arg)`. -/
def dupMat (s : St K) (d : DMat) : Out (DMat × St K) :=
  let (v, s1) := newMat s d.rows d.cols
  (mCopyFrom s1 v d).bind fun s2 => .ok (v, s2)

/-- the right operand of an operator. -/
inductive Arg (K : Type) where
  | num (a : K)
  | list (l : List K)
  | obj (o : Obj)

/-! ## Operators of `DVec` -/

/-- mat.py:103-106 `axpy`. -/
def axpy (s : St K) (a : K) (x y : DVec) : Out (St K) := call s (vAcc x ++ vAcc y) (vaxpy a x y s.mem)

/-- mat.py:118-121 `increment`. -/
def increment (s : St K) (d : DVec) (a : K) : Out (St K) := call s (vAcc d) (some (vinc a d s.mem))

/-- mat.py:176-184 `DVec.__iadd__`. -/
def vIadd (s : St K) (d : DVec) : Arg K → Out (St K)
  | .obj (.vec w _) => axpy s 1 w d
  | .obj (.mat _ _) => .exc
  | .list l => (listVec s l).bind fun (w, s1) => axpy s1 1 w d
  | .num a => increment s d a

/-- mat.py:222-225 `DVec.__imul__`; anything but a number is refused by `ctypes`. -/
def vImul (s : St K) (d : DVec) : Arg K → Out (St K)
  | .num a => call s (vAcc d) (some (vscal a d s.mem))
  | _ => .exc

/-- mat.py:239-241 `DVec.__itruediv__`; `1.0 / other` raises for zero, lists and objects. -/
def vIdiv (s : St K) (d : DVec) : Arg K → Out (St K)
  | .num a => if a = 0 then .exc else vImul s d (.num (1 / a))
  | _ => .exc

/-- `DVec(self)` followed by a method that works in place and returns the new object. -/
def vOn (s : St K) (d : DVec) (f : St K → DVec → Out (St K)) : Out (Obj × St K) :=
  (dupVec s d).bind fun (v, s1) => (f s1 v).bind fun s2 => .ok (ownVec v, s2)

/-- mat.py:186-192 `DVec.__add__`, `DVec.__radd__`. -/
def vAdd (s : St K) (d : DVec) (w : Arg K) : Out (Obj × St K) := vOn s d fun s1 v => vIadd s1 v w

/-- mat.py:204-212 `DVec.__sub__`. -/
def vSub (s : St K) (d : DVec) : Arg K → Out (Obj × St K)
  | .obj (.vec w _) => vOn s d fun s1 v => axpy s1 (-1) w v
  | .obj (.mat _ _) => .exc
  | .list l => (listVec s l).bind fun (w, s1) => vOn s1 d fun s2 v => axpy s2 (-1) w v
  | .num a => vOn s d fun s1 v => increment s1 v (-a)

/-- mat.py:231-237 `DVec.__mul__`, `DVec.__rmul__`. -/
def vMul (s : St K) (d : DVec) (w : Arg K) : Out (Obj × St K) := vOn s d fun s1 v => vImul s1 v w

/-- mat.py:243-245 `DVec.__truediv__`. -/
def vDiv (s : St K) (d : DVec) (w : Arg K) : Out (Obj × St K) := vOn s d fun s1 v => vIdiv s1 v w

/-- mat.py:227-229 `DVec.__neg__`. -/
def vNeg (s : St K) (d : DVec) : Out (Obj × St K) := vOn s d fun s1 v => vImul s1 v (.num (-1))

/-- mat.py:214-220 `DVec.__rsub__`. -/
def vRsub (s : St K) (d : DVec) : Arg K → Out (Obj × St K)
  | .num a => vOn s d fun s1 v => (vImul s1 v (.num (-1))).bind fun s2 => increment s2 v a
  | .list l => (listVec s l).bind fun (w, s1) => (axpy s1 (-1) d w).bind fun s2 => .ok (ownVec w, s2)
  | .obj _ => .exc

/-! ## Operators of `DMat` -/

/-- the elements that `aa_dmat_inc` uses (src/mat.c:501-515). -/
def incAcc (d : DMat) : List Nat :=
  if d.rows = d.cols then (List.range (d.rows * d.cols)).map fun k => d.data + k else mAcc d

/-- mat.py:438-442 `DMat.__imul__`. -/
def mImul (s : St K) (d : DMat) : Arg K → Out (St K)
  | .num a => call s (mAcc d) (some (mscal d a s.mem))
  | _ => .exc

/-- mat.py:468-470 `DMat.__itruediv__`. -/
def mIdiv (s : St K) (d : DMat) : Arg K → Out (St K)
  | .num a => if a = 0 then .exc else mImul s d (.num (1 / a))
  | _ => .exc

/-- mat.py:476-483 `DMat.__iadd__`. -/
def mIadd (s : St K) (d : DMat) : Arg K → Out (St K)
  | .num a => call s (incAcc d) (some (minc d a s.mem))
  | .obj (.mat w _) => call s (mAcc w ++ mAcc d) (maxpy 1 w d s.mem)
  | _ => .exc

/-- mat.py:495-502 `DMat.__isub__`. -/
def mIsub (s : St K) (d : DMat) : Arg K → Out (St K)
  | .num a => call s (incAcc d) (some (minc d (-a) s.mem))
  | .obj (.mat w _) => call s (mAcc w ++ mAcc d) (maxpy (-1) w d s.mem)
  | _ => .exc

/-- `DMat(self)` followed by a method that works in place and returns the new object. -/
def mOn (s : St K) (d : DMat) (f : St K → DMat → Out (St K)) : Out (Obj × St K) :=
  (dupMat s d).bind fun (v, s1) => (f s1 v).bind fun s2 => .ok (ownMat v, s2)

/-- mat.py:485-488 `DMat.__add__`. -/
def mAdd (s : St K) (d : DMat) : Arg K → Out (Obj × St K)
  | .num a => mOn s d fun s1 v => mIadd s1 v (.num a)
  | .obj (.mat w o) => mOn s d fun s1 v => mIadd s1 v (.obj (.mat w o))
  | _ => .exc

/-- mat.py:504-507 `DMat.__sub__`. -/
def mSub (s : St K) (d : DMat) : Arg K → Out (Obj × St K)
  | .num a => mOn s d fun s1 v => mIsub s1 v (.num a)
  | .obj (.mat w o) => mOn s d fun s1 v => mIsub s1 v (.obj (.mat w o))
  | _ => .exc

/-- mat.py:123-138 `DVec.gemv` with `CBLAS_NO_TRANS`. -/
def pyGemv (s : St K) (y : DVec) (a : K) (A : DMat) (x : DVec) (b : K) : Out (St K) :=
  if A.rows ≠ y.len then .exc
  else if A.cols ≠ x.len then .exc
  else call s (mAcc A ++ vAcc x ++ vAcc y) (gemv false a A x b y s.mem)

/-- mat.py:371-388 `DMat.gemm` without transposition. -/
def pyGemm (s : St K) (C : DMat) (a : K) (A B : DMat) (b : K) : Out (St K) :=
  if A.rows ≠ C.rows ∨ A.cols ≠ B.rows ∨ B.cols ≠ C.cols then .exc
  else call s (mAcc A ++ mAcc B ++ mAcc C) (gemm false false a A B b C s.mem)

/-- mat.py:451-454 the product with a vector. -/
def mulVec (s : St K) (d : DMat) (x : DVec) : Out (Obj × St K) :=
  let (y, s1) := newVec s d.rows
  (pyGemv s1 y 1 d x 0).bind fun s2 => .ok (ownVec y, s2)

/-- mat.py:457-460 the product with a matrix. -/
def mulMat (s : St K) (A B : DMat) : Out (Obj × St K) :=
  let (C, s1) := newMat s A.rows B.cols
  (pyGemm s1 C 1 A B 1).bind fun s2 => .ok (ownMat C, s2)

/-- mat.py:448-461 `DMat.__mul__`. -/
def mMul (s : St K) (d : DMat) : Arg K → Out (Obj × St K)
  | .num a => mOn s d fun s1 v => mImul s1 v (.num a)
  | .obj (.vec x _) => mulVec s d x
  | .list l => (listVec s l).bind fun (x, s1) => mulVec s1 d x
  | .obj (.mat B _) => mulMat s d B

/-- mat.py:472-474 `DMat.__truediv__`. -/
def mDiv (s : St K) (d : DMat) (w : Arg K) : Out (Obj × St K) := mOn s d fun s1 v => mIdiv s1 v w

/-- mat.py:444-446 `DMat.__neg__`. -/
def mNeg (s : St K) (d : DMat) : Out (Obj × St K) := mOn s d fun s1 v => mImul s1 v (.num (-1))

/-- mat.py:463-466, 490-493, 509-512 the operators with a number on the left. -/
def mRmul (s : St K) (d : DMat) : Arg K → Out (Obj × St K)
  | .num a => mOn s d fun s1 v => mImul s1 v (.num a)
  | _ => .exc
def mRadd (s : St K) (d : DMat) : Arg K → Out (Obj × St K)
  | .num a => mOn s d fun s1 v => mIadd s1 v (.num a)
  | _ => .exc
def mRsub (s : St K) (d : DMat) : Arg K → Out (Obj × St K)
  | .num a => mOn s d fun s1 v => (mImul s1 v (.num (-1))).bind fun s2 => mIadd s2 v (.num a)
  | _ => .exc

/-- mat.py:337-341 `transpose`. -/
def transpose (s : St K) (d : DMat) : Out (Obj × St K) :=
  let (B, s1) := newMat s d.cols d.rows
  (call s1 (mAcc d ++ mAcc B) (mtrans d B s1.mem)).bind fun s2 => .ok (ownMat B, s2)

/-! ## Dispatch of operators -/

inductive Op where
  | add | sub | mul | div
deriving DecidableEq, Repr

/-- `y op arg` with an object on the left. -/
def binop (s : St K) (op : Op) (o : Obj) (w : Arg K) : Out (Obj × St K) :=
  match op, o with
  | .add, .vec d _ => vAdd s d w
  | .sub, .vec d _ => vSub s d w
  | .mul, .vec d _ => vMul s d w
  | .div, .vec d _ => vDiv s d w
  | .add, .mat d _ => mAdd s d w
  | .sub, .mat d _ => mSub s d w
  | .mul, .mat d _ => mMul s d w
  | .div, .mat d _ => mDiv s d w

/-- `arg op y` with a number or a list on the left; there is no `__rtruediv__`. -/
def rbinop (s : St K) (op : Op) (w : Arg K) (o : Obj) : Out (Obj × St K) :=
  match op, o with
  | .add, .vec d _ => vAdd s d w
  | .sub, .vec d _ => vRsub s d w
  | .mul, .vec d _ => vMul s d w
  | .add, .mat d _ => mRadd s d w
  | .sub, .mat d _ => mRsub s d w
  | .mul, .mat d _ => mRmul s d w
  | .div, _ => .exc

/-- `x op= arg`. Inside the class the name `__isub` (mat.py:194) becomes `_DVec__isub`, so that `-=` on a
`DVec` falls back on `__sub__` and binds the variable to a new object. -/
def ibinop (s : St K) (op : Op) (o : Obj) (w : Arg K) : Out (Obj × St K) :=
  match op, o with
  | .add, .vec d _ => (vIadd s d w).bind fun s1 => .ok (o, s1)
  | .sub, .vec d _ => vSub s d w
  | .mul, .vec d _ => (vImul s d w).bind fun s1 => .ok (o, s1)
  | .div, .vec d _ => (vIdiv s d w).bind fun s1 => .ok (o, s1)
  | .add, .mat d _ => (mIadd s d w).bind fun s1 => .ok (o, s1)
  | .sub, .mat d _ => (mIsub s d w).bind fun s1 => .ok (o, s1)
  | .mul, .mat d _ =>  (mImul s d w).bind fun s1 => .ok (o, s1)
  | .div, .mat d _ => (mIdiv s d w).bind fun s1 => .ok (o, s1)

/-! ## Indexing -/

/-- conversion of a Python integer to `size_t` by `ctypes`, which does not check the range. -/
def toSize (z : Int) : Nat := (z % 2 ^ 64).toNat

def orAbort {α : Type} : Option α → Out α
  | none => .abort
  | some a => .ok a

/-- mat.py:148-156 a slice of a `DVec`. -/
def pySlice (d : DVec) (start stop step : Option Int) : Out Obj :=
  (orAbort (slice d ((start.map toSize).getD 0) ((stop.map toSize).getD d.len)
      ((step.map toSize).getD 1))).bind
    fun v => .ok (.vec v none)

/-- mat.py:317-322 `row_vec`. -/
def pyRow (d : DMat) (i : Int) : Out Obj :=
  if i < 0 ∨ i ≥ d.rows then .exc else (orAbort (rowVec d (toSize i))).bind fun v => .ok (.vec v none)

/-- mat.py:324-329 `col_vec`. -/
def pyCol (d : DMat) (j : Int) : Out Obj :=
  if j < 0 ∨ j ≥ d.cols then .exc else (orAbort (colVec d (toSize j))).bind fun v => .ok (.vec v none)

/-- mat.py:331-335 `diag_vec`. -/
def pyDiag (d : DMat) : Obj := .vec (diagVec d) none

/-- mat.py:420-429 a block: two slices; a bound that is left out is refused by `ctypes`. -/
def pyBlock (d : DMat) (i0 i1 istep j0 j1 jstep : Option Int) : Out Obj :=
  if ¬ (istep = none ∨ istep = some 0) then .exc
  else if ¬ (jstep = none ∨ jstep = some 0) then .exc
  else match i0, i1, j0, j1 with
    | some a, some b, some c, some e =>
      (orAbort (block d (toSize a) (toSize c) (toSize b) (toSize e))).bind fun M => .ok (.mat M none)
    | _, _, _, _ => .exc

/-- mat.py:157-159 an element of a `DVec`. -/
def vGet (s : St K) (d : DVec) (k : Int) : Out K :=
  if k < 0 ∨ k ≥ d.len then .exc else use s [d.data + k.toNat * d.inc] (.ok (s.mem (d.data + k.toNat * d.inc)))

/-- mat.py:161-165 `DVec.__setitem__`. -/
def vSet (s : St K) (d : DVec) (k : Int) (a : K) : Out (St K) :=
  if k < 0 ∨ k ≥ d.len then .exc
  else use s [d.data + k.toNat * d.inc] (.ok { s with mem := store s.mem (d.data + k.toNat * d.inc) a })

/-- mat.py:406-416, 430-431 an element of a `DMat`. -/
def mGet (s : St K) (d : DMat) (i j : Int) : Out K :=
  if i < 0 ∨ i ≥ d.rows then .exc
  else if j < 0 ∨ j ≥ d.cols then .exc
  else use s [d.data + (i.toNat + j.toNat * d.ld)] (.ok (s.mem (d.data + (i.toNat + j.toNat * d.ld))))

/-- mat.py:433-436 `DMat.__setitem__`. -/
def mSet (s : St K) (d : DMat) (i j : Int) (a : K) : Out (St K) :=
  if i < 0 ∨ i ≥ d.rows then .exc
  else if j < 0 ∨ j ≥ d.cols then .exc
  else use s [d.data + (i.toNat + j.toNat * d.ld)]
    (.ok { s with mem := store s.mem (d.data + (i.toNat + j.toNat * d.ld)) a })

/-! ## Programs -/

/-- an operand as written in the program. -/
inductive Ref (K : Type) where
  | num (a : K)
  | list (l : List K)
  | var (x : Nat)

/-- statements. Nested expressions are sequences of these with `del` for the temporaries. -/
inductive Stmt (K : Type) where
  | vecNew (x n : Nat)
  | vecList (x : Nat) (l : List K)
  | matNew (x m n : Nat)
  /-- `x = DVec(y)` or `x = DMat(y)` -/
  | dup (x y : Nat)
  /-- `x = y` -/
  | name (x y : Nat)
  | del (x : Nat)
  | bin (x : Nat) (op : Op) (y : Nat) (w : Ref K)
  /-- a number on the left -/
  | rbinNum (x : Nat) (op : Op) (a : K) (y : Nat)
  /-- a list on the left -/
  | rbinList (x : Nat) (op : Op) (l : List K) (y : Nat)
  | neg (x y : Nat)
  | ibin (x : Nat) (op : Op) (w : Ref K)
  | trans (x y : Nat)
  | slice (x y : Nat) (start stop step : Option Int)
  | row (x y : Nat) (i : Int)
  | col (x y : Nat) (j : Int)
  | diag (x y : Nat)
  | block (x y : Nat) (i0 i1 istep j0 j1 jstep : Option Int)
  | setV (x : Nat) (k : Int) (a : K)
  | setM (x : Nat) (i j : Int) (a : K)

/-- value of a variable; a name that is not bound raises. -/
def look (s : St K) (x : Nat) : Out Obj :=
  match s.get x with
  | none => .exc
  | some o => .ok o

def evalRef (s : St K) : Ref K → Out (Arg K)
  | .num a => .ok (.num a)
  | .list l => .ok (.list l)
  | .var x => (look s x).bind fun o => .ok (.obj o)

def bindTo (x : Nat) (p : Obj × St K) : Out (St K) := .ok (p.2.put x p.1)

def dupObj (s : St K) : Obj → Out (Obj × St K)
  | .vec d _ => (dupVec s d).bind fun (v, s1) => .ok (ownVec v, s1)
  | .mat d _ => (dupMat s d).bind fun (v, s1) => .ok (ownMat v, s1)

def negObj (s : St K) : Obj → Out (Obj × St K)
  | .vec d _ => vNeg s d
  | .mat d _ => mNeg s d

def asVec {α : Type} (o : Obj) (f : DVec → Out α) : Out α :=
  match o with
  | .vec d _ => f d
  | .mat _ _ => .exc

def asMat {α : Type} (o : Obj) (f : DMat → Out α) : Out α :=
  match o with
  | .vec _ _ => .exc
  | .mat d _ => f d

/-- one statement. -/
def step (s : St K) : Stmt K → Out (St K)
  | .vecNew x n => let (v, s1) := newVec s n; bindTo x (ownVec v, s1)
  | .vecList x l => (listVec s l).bind fun (v, s1) => bindTo x (ownVec v, s1)
  | .matNew x m n => let (v, s1) := newMat s m n; bindTo x (ownMat v, s1)
  | .dup x y => (look s y).bind fun o => (dupObj s o).bind (bindTo x)
  | .name x y => (look s y).bind fun o => bindTo x (o, s)
  | .del x => (look s x).bind fun _ => .ok { s with env := s.env.filter (fun p => p.1 != x) }
  | .bin x op y w => (look s y).bind fun o => (evalRef s w).bind fun a => (binop s op o a).bind (bindTo x)
  | .rbinNum x op a y => (look s y).bind fun o => (rbinop s op (.num a) o).bind (bindTo x)
  | .rbinList x op l y => (look s y).bind fun o => (rbinop s op (.list l) o).bind (bindTo x)
  | .neg x y => (look s y).bind fun o => (negObj s o).bind (bindTo x)
  | .ibin x op w => (look s x).bind fun o => (evalRef s w).bind fun a => (ibinop s op o a).bind (bindTo x)
  | .trans x y => (look s y).bind fun o => asMat o fun d => (transpose s d).bind (bindTo x)
  | .slice x y a b c => (look s y).bind fun o => asVec o fun d => (pySlice d a b c).bind fun v => bindTo x (v, s)
  | .row x y i => (look s y).bind fun o => asMat o fun d => (pyRow d i).bind fun v => bindTo x (v, s)
  | .col x y j => (look s y).bind fun o => asMat o fun d => (pyCol d j).bind fun v => bindTo x (v, s)
  | .diag x y => (look s y).bind fun o => asMat o fun d => bindTo x (pyDiag d, s)
  | .block x y a b c e f g =>
    (look s y).bind fun o => asMat o fun d => (pyBlock d a b c e f g).bind fun v => bindTo x (v, s)
  | .setV x k a => (look s x).bind fun o => asVec o fun d => (vSet s d k a).bind fun s1 => .ok s1.done
  | .setM x i j a => (look s x).bind fun o => asMat o fun d => (mSet s d i j a).bind fun s1 => .ok s1.done

/-- a program. -/
def run (s : St K) : List (Stmt K) → Out (St K)
  | [] => .ok s
  | p :: ps => (step s p).bind fun s1 => run s1 ps

/-- the start of a program. -/
def init : St K := ⟨fun _ => 0, 0, [], []⟩

/-- reading `x[k]` and `x[i, j]`. -/
def readV (s : St K) (x : Nat) (k : Int) : Out K := (look s x).bind fun o => asVec o fun d => vGet s d k
def readM (s : St K) (x : Nat) (i j : Int) : Out K := (look s x).bind fun o => asMat o fun d => mGet s d i j

end Verif.PyMat
