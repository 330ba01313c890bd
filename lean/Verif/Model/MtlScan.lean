import Verif.Model.Flex

/-!
# The scanner of Wavefront MTL files (src/wavefront/mtl.l)
-/

namespace Verif.MtlScan

open Verif.Wf Verif.Flex

/-- The colours of a material. -/
inductive Col
  | ambient | diffuse | specular | emission
  deriving DecidableEq, Repr

/-- The numbers of a material. -/
inductive Sc
  | weight | ior | alpha
  deriving DecidableEq, Repr

/-- Start conditions (mtl.l 65-81).  `k c` is KA, KD, KS, KE; `num s` is NS, NI, D; `ILLUM` is never
entered. -/
inductive St
  | initial | eol | newmtl
  | num (s : Sc)
  | k (c : Col)
  | v0 | v1 | v2
  deriving DecidableEq, Repr

/-- `struct aa_rx_wf_material` (wavefront_internal.h 127-144): values and flags. -/
structure Mat where
  name : String
  col : Col → Fin 3 → Rat
  hasCol : Col → Bool
  num : Sc → Rat
  hasNum : Sc → Bool

/-- A material as `aa_rx_wf_mtl_push` makes it, cleared but for the name (wf_mtl.c 56-57). -/
def Mat.new (n : String) : Mat := ⟨n, fun _ _ => 0, fun _ => false, fun _ => 0, fun _ => false⟩

/-- `struct aa_rx_wf_mtl`: `current` is always the last material pushed, or null if there is none.
`mats` has the last material first.  `v` is the array `yyextra->v` points to, in the current
material.  `stack` is the stack of start conditions. -/
structure E where
  st : St
  stack : List St
  mats : List Mat
  v : Col

/-- `BEGIN(st)`. -/
def go (st : St) : List Char → E → Out E := fun _ e => .ok { e with st := st }

/-- A change of `WF_MTL_CURRENT` (wavefront_internal.h 155), undefined for the null pointer. -/
def onCurrent (e : E) (g : Mat → Mat) : Out E :=
  match e.mats with
  | [] => .ub
  | m :: ms => .ok { e with mats := g m :: ms }

def setNum (s : Sc) (x : Rat) (m : Mat) : Mat :=
  { m with num := fun s' => if s' = s then x else m.num s'
           hasNum := fun s' => if s' = s then true else m.hasNum s' }

def setCol (c : Col) (i : Fin 3) (x : Rat) (m : Mat) : Mat :=
  { m with col := fun c' => if c' = c then fun j => if j = i then x else m.col c j else m.col c' }

def setHas (c : Col) (m : Mat) : Mat :=
  { m with hasCol := fun c' => if c' = c then true else m.hasCol c' }

/-- `{START}"kw".*{END}` (mtl.l 221, 225): the whole line with its newline. -/
def mIgnore (kw : List Char) (s : List Char) : Nat :=
  if kw.isPrefixOf (s.dropWhile isBlank) then
    if s.dropWhile notNl = [] then 0 else (s.takeWhile notNl).length + 1
  else 0

/-- `aa_rx_wf_mtl_push` (wf_mtl.c 52-59). -/
def pushAct (y : List Char) (e : E) : Out E :=
  .ok { e with st := .eol, mats := Mat.new (String.ofList y) :: e.mats }

/-- A line with a number (mtl.l 125-129, 135-139, 215-219). -/
def numAct (s : Sc) (y : List Char) (e : E) : Out E :=
  match onCurrent e (setNum s (parseFloat y)) with
  | .ok e' => .ok { e' with st := .eol }
  | o => o

/-- `yyextra->v = WF_MTL_CURRENT->ambient; BEGIN(KA); yy_push_state(V0)` (mtl.l 159-163 and the
same for the other colours).  The address of a member of the null pointer is undefined. -/
def colAct (c : Col) (_ : List Char) (e : E) : Out E :=
  match e.mats with
  | [] => .ub
  | _ :: _ => .ok { e with st := .v0, stack := .k c :: e.stack, v := c }

/-- `yyextra->v[i] = aa_rx_wf_parse_float(yytext)` (mtl.l 142-150). -/
def vAct (i : Fin 3) (st : St) (y : List Char) (e : E) : Out E :=
  match onCurrent e (setCol e.v i (parseFloat y)) with
  | .ok e' => .ok { e' with st := st }
  | o => o

/-- The last number, then `yy_pop_state` (mtl.l 152-155).  An empty stack is a fatal error. -/
def vLast (y : List Char) (e : E) : Out E :=
  match onCurrent e (setCol e.v 2 (parseFloat y)) with
  | .ok e' =>
    match e'.stack with
    | [] => .ub
    | st :: sts => .ok { e' with st := st, stack := sts }
  | o => o

/-- `<KA>{END}` and the like (mtl.l 165-168, 178-181, 190-193, 204-207). -/
def colEnd (c : Col) (_ : List Char) (e : E) : Out E :=
  match onCurrent e (setHas c) with
  | .ok e' => .ok { e' with st := .initial }
  | o => o

/-- The rules of a start condition, in the order of mtl.l 102-235. -/
def rulesOf : St → List (Rule E)
  | .initial =>
    [⟨mEnd, fun _ e => .ok e⟩,
     ⟨mKw ['n', 'e', 'w', 'm', 't', 'l'], go .newmtl⟩,
     ⟨mKw ['N', 's'], go (.num .weight)⟩,
     ⟨mKw ['N', 'i'], go (.num .ior)⟩,
     ⟨mKw ['K', 'a'], colAct .ambient⟩,
     ⟨mKw ['K', 'd'], colAct .diffuse⟩,
     ⟨mKw ['K', 's'], colAct .specular⟩,
     ⟨mKw ['K', 'e'], colAct .emission⟩,
     ⟨mKw ['d'], go (.num .alpha)⟩,
     ⟨mIgnore ['i', 'l', 'l', 'u', 'm'], fun _ e => .ok e⟩,
     ⟨mIgnore ['m', 'a', 'p', '_', 'K', 'd'], fun _ e => .ok e⟩,
     errRule]
  | .eol => [⟨mEnd, go .initial⟩, errRule]
  | .newmtl => [⟨mGraph, pushAct⟩, errRule]
  | .num s => [⟨mNumEnd, numAct s⟩, errRule]
  | .v0 => [⟨mNumBlanks, vAct 0 .v1⟩, errRule]
  | .v1 => [⟨mNumBlanks, vAct 1 .v2⟩, errRule]
  | .v2 => [⟨mNumEnd, vLast⟩, errRule]
  | .k c => [⟨mEnd, colEnd c⟩, errRule]

/-- `aa_rx_wf_mtl_parse` (mtl.l 239-268) on the contents of a file that can be opened: the
materials, last first.  `v` is uninitialized. -/
def parse (v : Col) (s : List Char) : Out (List Mat) :=
  match lex (fun e : E => rulesOf e.st) s.length ⟨.initial, [], [], v⟩ s with
  | .ok e => .ok e.mats
  | .null => .null
  | .ub => .ub

end Verif.MtlScan
