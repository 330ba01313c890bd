import Mathlib.Data.Rat.Defs
import Mathlib.Algebra.Order.Ring.Rat
import Mathlib.Algebra.Order.Field.Rat
import Mathlib.Data.Nat.Digits.Defs
import Mathlib.Tactic.NormNum
import Mathlib.Tactic.Linarith
import Mathlib.Tactic.Ring
import Mathlib.Tactic.FieldSimp

/-!
# Wavefront files: numbers and materials (src/wavefront/wf_obj.c)

Doubles are rational numbers, strings are lists of characters.  `long` has 64 bits.
-/

namespace Verif.Wf

/-! ## Numbers -/

/-- `isblank` in the C locale. -/
def isBlank (c : Char) : Bool := c = ' ' || c = '\t'

/-- `isspace` in the C locale. -/
def isSpace (c : Char) : Bool :=
  c = ' ' || c = '\t' || c = '\n' || c = '\r' || c.toNat = 11 || c.toNat = 12

/-- The value of a digit. -/
def digitVal (c : Char) : Nat := c.toNat - 48

/-- Decimal digits, most significant first, accumulated as `strtol` does. -/
def accum (l : List Char) : Nat := l.foldl (fun a c => 10 * a + digitVal c) 0

/-- The range of `long`; `strtol` saturates. -/
def clampLong (i : Int) : Int := max (-2 ^ 63) (min (2 ^ 63 - 1) i)

/-- The optional sign of a number. -/
def takeSign : List Char → Bool × List Char
  | '-' :: s => (true, s)
  | '+' :: s => (false, s)
  | s => (false, s)

/-- `strtol(str, &end, 10)` (C11 7.22.1.4): the value and the remaining characters, which are all
of them if there is no digit. -/
def strtol (s : List Char) : Int × List Char :=
  let (neg, t) := takeSign (s.dropWhile isSpace)
  let ds := t.takeWhile Char.isDigit
  if ds = [] then (0, s)
  else (clampLong (if neg then -(accum ds : Int) else accum ds), t.dropWhile Char.isDigit)

/-- `while(k--) x/=10;` (wf_obj.c 133). -/
def divTen : Nat → Rat → Rat
  | 0, x => x
  | k + 1, x => divTen k (x / 10)

/-- `aa_rx_wf_parse_float` (wf_obj.c 117-146). -/
def parseFloat (str : List Char) : Rat :=
  let s := str.dropWhile isBlank
  let (r, e) := strtol s
  match e with
  | '.' :: e' =>
    let (f, g) := strtol e'
    if f ≠ 0 then
      let k := e'.length - g.length
      if k ≠ 0 then
        let x := divTen k (f : Rat)
        if (r : Rat) < 0 ∨ s.head? = some '-' then r - x else r + x
      else r
    else r
  | _ => r

/-! ## Materials -/

/-- A conversion to `int32_t` (wrapping, as compilers do). -/
def toI32 (n : Nat) : Int := (n : Int).bmod (2 ^ 32)

/-- The parts of `struct aa_rx_wf_obj` (wf_obj.c 53-75) that faces and materials use. -/
structure Obj where
  vertexIdx : List Int
  normalIdx : List Int
  uvIdx : List Int
  textureIdx : List Int
  mtlFiles : List String
  materials : List String
  current : Int

/-- `aa_rx_wf_obj_create` (wf_obj.c 95-115). -/
def create : Obj := ⟨[], [], [], [], [], [], 0⟩

/-- A face: vertex, normal and texture indices (wavefront_internal.h 48-53). -/
structure Face where
  v : Fin 3 → Int
  n : Fin 3 → Int
  t : Fin 3 → Int

/-- `aa_rx_wf_obj_push_face` (wf_obj.c 189-201). -/
def pushFace (o : Obj) (f : Face) : Obj :=
  { o with
    vertexIdx := o.vertexIdx ++ [f.v 0, f.v 1, f.v 2]
    normalIdx := o.normalIdx ++ [f.n 0, f.n 1, f.n 2]
    uvIdx := o.uvIdx ++ [f.t 0, f.t 1, f.t 2]
    textureIdx := o.textureIdx ++ [o.current] }

/-- The search loop of `aa_rx_wf_obj_use_material` (wf_obj.c 263-269). -/
def findMat (m : String) : List String → Nat → Option Nat
  | [], _ => none
  | x :: xs, i => if m = x then some i else findMat m xs (i + 1)

/-- `aa_rx_wf_obj_use_material` (wf_obj.c 259-274). -/
def useMaterial (o : Obj) (m : String) : Obj :=
  match findMat m o.materials 0 with
  | some i => { o with current := toI32 i }
  | none => { o with current := toI32 o.materials.length, materials := o.materials ++ [m] }

/-- `aa_rx_wf_obj_push_mtl` (wf_obj.c 210-229); only the file name. -/
def pushMtl (o : Obj) (f : String) : Obj := { o with mtlFiles := o.mtlFiles ++ [f] }

/-- `aa_rx_wf_obj_get_material_name` (wf_obj.c 283-291). -/
def getMaterialName (o : Obj) (i : Nat) : Option String :=
  if i < o.materials.length then o.materials[i]? else none

/-- `aa_rx_wf_obj_get_mtl_filename` (wf_obj.c 239-247).  The outer `none` is a read of an element
that was never stored. -/
def getMtlFilename (o : Obj) (i : Nat) : Option (Option String) :=
  if i ≤ o.mtlFiles.length then
    match o.mtlFiles[i]? with
    | some s => some (some s)
    | none => none
  else some none

/-- Directives of a file that concern faces and materials (wavefront.l). -/
inductive Dir
  | use (m : String)
  | face (f : Face)
  | mtllib (f : String)

/-- The scanner's action for a directive (wavefront.l 121-143, 301-306). -/
def step (o : Obj) : Dir → Obj
  | .use m => useMaterial o m
  | .face f => pushFace o f
  | .mtllib f => pushMtl o f

/-- A file. -/
def run (ds : List Dir) : Obj := ds.foldl step create

end Verif.Wf
