import Verif.Model.Flex

/-!
# The scanner of Wavefront OBJ files (src/wavefront/wavefront.l)
-/

namespace Verif.WfScan

open Verif.Wf Verif.Flex

/-- Start conditions (wavefront.l 63-93).  `ERROR` is never entered. -/
inductive St
  | initial | eol | mtllib | usemtl | object
  | v0 | v1 | v2 | vt0 | vt1 | vn0 | vn1 | vn2
  | fv (i : Fin 3) | ft (i : Fin 3) | fn (i : Fin 3)
  deriving DecidableEq, Repr

/-- `struct aa_rx_wf_obj` (wf_obj.c 53-75): faces, materials and material files in `obj`, the
vectors of numbers, the names of objects.  Memory allocation does not fail. -/
structure File where
  obj : Obj
  vertex : List Rat
  normal : List Rat
  tex : List Rat
  objects : List String

/-- `aa_rx_wf_obj_create` (wf_obj.c 95-115). -/
def File.new : File := ⟨create, [], [], [], []⟩

/-- The start condition and `struct wf_extra` (wavefront_internal.h 55-58). -/
structure E where
  st : St
  file : File
  face : Face

/-- `BEGIN(st)`. -/
def go (st : St) : List Char → E → Out E := fun _ e => .ok { e with st := st }

/-- `aa_rx_wf_obj_push_vertex` (wf_obj.c 170-175). -/
def pushVertex (x : Rat) (f : File) : File := { f with vertex := f.vertex ++ [x] }

/-- `aa_rx_wf_obj_push_normal` (wf_obj.c 183-187). -/
def pushNormal (x : Rat) (f : File) : File := { f with normal := f.normal ++ [x] }

/-- `aa_rx_wf_obj_push_texture_vertex` (wf_obj.c 177-181). -/
def pushTex (x : Rat) (f : File) : File := { f with tex := f.tex ++ [x] }

/-- `aa_rx_wf_obj_push_object` (wf_obj.c 203-208). -/
def pushObject (s : String) (f : File) : File := { f with objects := f.objects ++ [s] }

/-- A rule that stores the number it matched. -/
def numRule (m : List Char → Nat) (push : Rat → File → File) (st : St) : Rule E :=
  ⟨m, fun y e => .ok { e with st := st, file := push (parseFloat y) e.file }⟩

/-- `(int32_t)atol(yytext)-1` (wavefront_internal.h 61-62).  `none`: the subtraction overflows. -/
def faceIdx (y : List Char) : Option Int :=
  let i := (strtol y).1.bmod (2 ^ 32)
  if i = -2 ^ 31 then none else some (i - 1)

/-- Store into one element of an array of three. -/
def set3 (f : Fin 3 → Int) (i : Fin 3) (k : Int) : Fin 3 → Int := fun j => if j = i then k else f j

/-- A rule that stores an index of the face. -/
def faceRule (m : List Char → Nat) (put : Int → E → E) : Rule E :=
  ⟨m, fun y e => match faceIdx y with
    | none => .ub
    | some k => .ok (put k e)⟩

def setV (i : Fin 3) (k : Int) (f : Face) : Face := { f with v := set3 f.v i k }
def setT (i : Fin 3) (k : Int) (f : Face) : Face := { f with t := set3 f.t i k }
def setN (i : Fin 3) (k : Int) (f : Face) : Face := { f with n := set3 f.n i k }

/-- The last normal: the face is complete (wavefront.l 301-306). -/
def lastN (k : Int) (e : E) : E :=
  { st := .initial, face := setN 2 k e.face,
    file := { e.file with obj := pushFace e.file.obj (setN 2 k e.face) } }

/-- `<MTLLIB>` (wavefront.l 125-131).  `mtl` says whether the file can be parsed. -/
def mtlAct (mtl : String → Bool) (y : List Char) (e : E) : Out E :=
  if mtl (String.ofList y) then
    .ok { e with st := .eol, file := { e.file with obj := pushMtl e.file.obj (String.ofList y) } }
  else .null

/-- The rules of a start condition, in the order of wavefront.l 111-322. -/
def rulesOf (mtl : String → Bool) : St → List (Rule E)
  | .initial =>
    [⟨mEnd, fun _ e => .ok e⟩,
     ⟨mKw ['m', 't', 'l', 'l', 'i', 'b'], go .mtllib⟩,
     ⟨mKw ['u', 's', 'e', 'm', 't', 'l'], go .usemtl⟩,
     ⟨mKw ['o'], go .object⟩,
     ⟨mKw ['v'], go .v0⟩,
     ⟨mKw ['v', 't'], go .vt0⟩,
     ⟨mKw ['v', 'n'], go .vn0⟩,
     ⟨mKwLine ['s'], go .eol⟩,
     ⟨mKw ['f'], go (.fv 0)⟩,
     ⟨mL, fun _ e => .ok e⟩,
     errRule]
  | .eol => [⟨mEnd, go .initial⟩, errRule]
  | .mtllib => [⟨mGraph, mtlAct mtl⟩, errRule]
  | .usemtl =>
    [⟨mGraph, fun y e => .ok { e with
        st := .eol, file := { e.file with obj := useMaterial e.file.obj (String.ofList y) } }⟩,
     errRule]
  | .object =>
    [⟨mGraph, fun y e => .ok { e with st := .eol, file := pushObject (String.ofList y) e.file }⟩,
     errRule]
  | .v0 => [numRule mNumBlanks pushVertex .v1, errRule]
  | .v1 => [numRule mNumBlanks pushVertex .v2, errRule]
  | .v2 => [numRule mNumEnd pushVertex .eol, errRule]
  | .vt0 => [numRule mNumBlanks pushTex .vt1, errRule]
  | .vt1 => [numRule mNumEnd pushTex .eol, errRule]
  | .vn0 => [numRule mNumBlanks pushNormal .vn1, errRule]
  | .vn1 => [numRule mNumBlanks pushNormal .vn2, errRule]
  | .vn2 => [numRule mNumEnd pushNormal .eol, errRule]
  | .fv i => [faceRule mIntSlash fun k e => { e with st := .ft i, face := setV i k e.face }, errRule]
  | .ft i =>
    [⟨mSlash, fun _ e => .ok { e with st := .fn i, face := setT i (-1) e.face }⟩,
     faceRule mIntSlash fun k e => { e with st := .fn i, face := setT i k e.face },
     errRule]
  | .fn i =>
    if i = 2 then [faceRule mIntEnd lastN, errRule]
    else [faceRule mIntBlanks fun k e => { e with st := .fv (i + 1), face := setN i k e.face },
      errRule]

/-- `aa_rx_wf_parse` (wavefront.l 326-358) on the contents of a file that can be opened.  `face` is
the uninitialized face of `struct wf_extra`. -/
def parse (mtl : String → Bool) (face : Face) (s : List Char) : Out File :=
  match lex (fun e : E => rulesOf mtl e.st) s.length ⟨.initial, File.new, face⟩ s with
  | .ok e => .ok e.file
  | .null => .null
  | .ub => .ub

end Verif.WfScan
