/-
The colours of Wavefront materials in compiled meshes: `wavefront-material-extract`, `wavefront-mtl-extract` and
the materials of `wavefront-obj-load` (lisp/rx/wavefront.lisp:123-167 and 193-194), and the bytes of
`scene-genc-mesh-texture` (lisp/rx/sg-gen.lisp:192-202).

Numbers are rationals, as the scanner of `Model/MtlScan.lean` leaves them.  `none` stands for an error that is
signalled.
-/
import Verif.Model.MtlScan
import Mathlib.Data.Rat.Floor

namespace Verif.MtlLisp

open Verif.MtlScan

/-- The keywords of the properties (lisp/rx/wavefront.lisp:130-141). -/
inductive Tag
  | alpha | ior | ambient | diffuse | emission | specular
  deriving DecidableEq

/-- A number or three of them. -/
inductive Val
  | num (x : Rat)
  | vec (x : Fin 3 → Rat)

abbrev Props := List (Tag × Val)

/-- The `int` of `DEF_HAS` (src/wavefront/wf_mtl.c:90-96). -/
def cint (b : Bool) : Int := if b then 1 else 0

/-- `(when x ...)` for an integer `x`: every integer, also 0, is true. -/
def lispTrue (_ : Int) : Bool := true

/-- `(when (has material) (push ...))`. -/
def whenPush (has : Bool) (t : Tag) (v : Val) (props : Props) : Props :=
  if lispTrue (cint has) then (t, v) :: props else props

/-- `wavefront-material-extract` (lisp/rx/wavefront.lisp:123-142). -/
def extract (m : Mat) : String × Props :=
  (m.name,
    whenPush (m.hasCol .specular) .specular (.vec (m.col .specular)) <|
    whenPush (m.hasCol .emission) .emission (.vec (m.col .emission)) <|
    whenPush (m.hasCol .diffuse) .diffuse (.vec (m.col .diffuse)) <|
    whenPush (m.hasCol .ambient) .ambient (.vec (m.col .ambient)) <|
    whenPush (m.hasNum .ior) .ior (.num (m.num .ior)) <|
    whenPush (m.hasNum .alpha) .alpha (.num (m.num .alpha)) [])

/-- `wavefront-mtl-extract` (lisp/rx/wavefront.lisp:147-155): the materials of all files, the last first. -/
def mtlExtract (files : List (List Mat)) : List (String × Props) :=
  files.foldl (fun r ms => ms.foldl (fun r m => extract m :: r) r) []

/-- `assoc`, with the pair found. -/
def assoc {α β : Type} [DecidableEq α] (a : α) : List (α × β) → Option (α × β)
  | [] => none
  | p :: l => if p.1 = a then some p else assoc a l

/-- The texture of a material of the OBJ file (lisp/rx/wavefront.lisp:162-167 and 193-194): the rest of the pair
found, nil if there is none. -/
def texture (al : List (String × Props)) (name : String) : Props :=
  match assoc name al with
  | some p => p.2
  | none => []

/-- `alist-get-default` (lisp/rx/util.lisp:45-47) where the default is not an association list:
`'(.5d0 .5d0 .5d0)` and `1d0` (lisp/rx/sg-gen.lisp:195-196).  `assoc` of those is an error. -/
def getDefault (opt : Props) (t : Tag) : Option Val := (assoc t opt).map Prod.snd

/-- `round`: to the nearest integer, halves to the even one. -/
def rnd (x : Rat) : Int :=
  if x - ⌊x⌋ < 1 / 2 then ⌊x⌋
  else if 1 / 2 < x - ⌊x⌋ then ⌊x⌋ + 1
  else if ⌊x⌋ % 2 = 0 then ⌊x⌋ else ⌊x⌋ + 1

/-- `ratio->octet` (lisp/rx/sg-gen.lisp:155-158). -/
def octet (f : Rat) : Option Int :=
  if f ≤ 1 ∧ f ≥ 0 then some (max 0 (min 255 (rnd (255 * f)))) else none

/-- The four bytes of a material (lisp/rx/sg-gen.lisp:194-201). -/
def bytes (opt : Props) : Option (List Int) :=
  (getDefault opt .diffuse).bind fun rgb => (getDefault opt .alpha).bind fun al =>
    match rgb, al with
    | .vec c, .num a =>
        (octet (c 0)).bind fun r => (octet (c 1)).bind fun g => (octet (c 2)).bind fun b =>
          (octet a).map fun a => [r, g, b, a]
    | _, _ => none

/-- The bytes of all materials in turn (lisp/rx/sg-gen.lisp:193-202). -/
def rgbaFrom (al : List (String × Props)) : List String → Option (List Int)
  | [] => some []
  | n :: ns => (bytes (texture al n)).bind fun b => (rgbaFrom al ns).map fun r => b ++ r

/-- The bytes of the texture for the materials `names` of the OBJ file and the materials of its MTL files. -/
def rgba (files : List (List Mat)) (names : List String) : Option (List Int) :=
  rgbaFrom (mtlExtract files) names

end Verif.MtlLisp
