/-
Sets of scene graphs of the Lisp library: frames, configurations with their limits, allowed collisions and files;
`collision-set-insert`, `merge-scene-graph`, `%scene-graph-add-frame`, `scene-graph-clean-frame`,
`scene-graph-remove-frame`, the centres of limits, `scene-graph-position-limit-p` and `scene-graph`
(lisp/rx/scenegraph.lisp:516-523, 572-596, 623-683, 704-761 and 1117-1124).

Tree sets of Sycamore are lists of their elements in any order: inserting what is there keeps the old element,
replacing takes the new one.  Of the limits of a configuration only those of the position are kept.  Numbers are of
an ordered field.  Left out: loading files, so names of files are not things to be added.
-/
import Verif.Model.LispSg
import Mathlib.Algebra.Order.Field.Basic
import Mathlib.Data.String.Basic

namespace Verif.SgSet

open Verif.LispSg

variable {G Q K : Type} [Group G] [Field K] [LinearOrder K]

/-- What frames carry here: the name of the configuration and the limits of joints, `none` for fixed frames. -/
abbrev JData (K : Type) := Option (String × Option (K × K))

abbrev SFrame (G Q K : Type) := Frame G Q (JData K)

/-- `scene-graph` (lisp/rx/scenegraph.lisp:555-563). -/
structure Scene (G Q K : Type) where
  frames : List (String × SFrame G Q K)
  allowed : List (String × String)
  files : List String
  configs : List (String × Option (K × K))

/-- `make-scene-graph` (lisp/rx/scenegraph.lisp:555-563). -/
def empty : Scene G Q K := ⟨[], [], [], []⟩

/-- `tree-set-find` of configurations. -/
def lookup {α : Type} : List (String × α) → String → Option α
  | [], _ => none
  | (m, x) :: l, n => if m = n then some x else lookup l n

/-- `tree-set-insert`: keeps what is there. -/
def insertNew {α : Type} (l : List (String × α)) (n : String) (x : α) : List (String × α) :=
  match lookup l n with
  | some _ => l
  | none => (n, x) :: l

/-- `tree-set-replace`. -/
def replace {α : Type} (l : List (String × α)) (n : String) (x : α) : List (String × α) :=
  (n, x) :: l.filter fun e => e.1 ≠ n

/-- `tree-set-union` of plain sets. -/
def union {α : Type} [DecidableEq α] (a b : List α) : List α := a ++ b.filter fun x => x ∉ a

/-- `collision-set-insert` (lisp/rx/scenegraph.lisp:516-523). -/
def collisionInsert (s : List (String × String)) (a b : String) : List (String × String) :=
  let p := if a < b then (a, b) else if a = b then (a, b) else (b, a)
  if p ∈ s then s else p :: s

/-- `scene-graph-allow-collision` (lisp/rx/scenegraph.lisp:623-629). -/
def allow (sg : Scene G Q K) (a b : String) : Scene G Q K := { sg with allowed := collisionInsert sg.allowed a b }

/-- `scene-graph-allow-collisions` (lisp/rx/scenegraph.lisp:631-639). -/
def allowAll (sg : Scene G Q K) (l : List (String × String)) : Scene G Q K := l.foldl (fun sg p => allow sg p.1 p.2) sg

inductive IfExists
  | error | supersede
  deriving DecidableEq

/-- `merge-set` (lisp/rx/scenegraph.lisp:576-586). -/
def mergeSet {α : Type} (m : IfExists) (a b : List (String × α)) : Option (List (String × α)) :=
  match m with
  | .error => if a.any fun e => (lookup b e.1).isSome then none else some (a ++ b)
  | .supersede => some (b.foldl (fun l e => replace l e.1 e.2) a)

/-- `merge-scene-graph` (lisp/rx/scenegraph.lisp:572-596). -/
def merge (m : IfExists) (a b : Scene G Q K) : Option (Scene G Q K) :=
  (mergeSet m a.frames b.frames).bind fun fr => (mergeSet m a.configs b.configs).map fun cf =>
    ⟨fr, union a.allowed b.allowed, union a.files b.files, cf⟩

/-- `%scene-graph-add-frame` (lisp/rx/scenegraph.lisp:641-655). -/
def addFrame (sg : Scene G Q K) (n : String) (f : SFrame G Q K) : Scene G Q K :=
  { sg with
    frames := put sg.frames n f
    configs := match f.data with
      | some (c, lim) => insertNew sg.configs c lim
      | none => sg.configs }

/-- `%clean-allowed-collisions` (lisp/rx/scenegraph.lisp:657-664). -/
def cleanAllowed (n : String) (s : List (String × String)) : List (String × String) :=
  s.foldl (fun t x => if x.1 = n ∨ x.2 = n then t else if x ∈ t then t else x :: t) []

/-- `scene-graph-clean-frame` (lisp/rx/scenegraph.lisp:666-675). -/
def cleanFrame (sg : Scene G Q K) (n : String) : Scene G Q K :=
  { sg with frames := sg.frames.filter fun e => e.1 ≠ n, allowed := cleanAllowed n sg.allowed }

/-- `scene-graph-remove-frame` (lisp/rx/scenegraph.lisp:677-683). -/
def removeFrame (sg : Scene G Q K) (n : String) : Scene G Q K :=
  { sg with frames := sg.frames.filter fun e => e.1 ≠ n }

/-- `scene-graph-config-limits` (lisp/rx/scenegraph.lisp:704-707). -/
def configLimits (sg : Scene G Q K) (c : String) : Option (K × K) := (lookup sg.configs c).join

/-- `scene-graph-joint-center` (lisp/rx/scenegraph.lisp:709-715). -/
def jointCenter (sg : Scene G Q K) (c : String) : K :=
  match configLimits sg c with
  | some (lo, hi) => 1 / 2 * (hi + lo)
  | none => 0

/-- `scene-graph-configurations` (lisp/rx/scenegraph.lisp:1117-1124): names of frames. -/
def configurations (sg : Scene G Q K) : List String :=
  (sg.frames.filter fun e => e.2.data.isSome).foldl (fun l e => e.1 :: l) []

/-- `scene-graph-center-map` (lisp/rx/scenegraph.lisp:718-723). -/
def centerMap (sg : Scene G Q K) : List (String × K) :=
  (configurations sg).foldl (fun m c => replace m c (jointCenter sg c)) []

/-- `scene-graph-position-limit-p` (lisp/rx/scenegraph.lisp:725-739): the configurations out of limits. -/
def outOfLimits (sg : Scene G Q K) (m : List (String × K)) : List String :=
  m.foldl (fun v e => match configLimits sg e.1 with
    | none => v
    | some (lo, hi) => if e.2 ≤ hi ∧ lo ≤ e.2 then v else e.1 :: v) []

/-- Arguments of `scene-graph`. -/
inductive Thing (G Q K : Type)
  | frame (n : String) (f : SFrame G Q K)
  | graph (sg : Scene G Q K)
  | list (l : List (Thing G Q K))

mutual
/-- `rec` of `%scene-graph` (lisp/rx/scenegraph.lisp:742-754). -/
def addThing (sg : Scene G Q K) : Thing G Q K → Option (Scene G Q K)
  | .frame n f => some (addFrame sg n f)
  | .graph s => merge .error sg s
  | .list l => (addThings empty l).bind fun s => merge .error sg s

/-- The fold of `%scene-graph` (lisp/rx/scenegraph.lisp:755). -/
def addThings (sg : Scene G Q K) : List (Thing G Q K) → Option (Scene G Q K)
  | [] => some sg
  | t :: l => (addThing sg t).bind fun s => addThings s l
end

/-- `scene-graph` (lisp/rx/scenegraph.lisp:757-762). -/
def sceneGraph (l : List (Thing G Q K)) : Option (Scene G Q K) := addThings empty l

end Verif.SgSet
