/-
Poses in scene graphs of the Lisp library: `scene-frame-tf-local`, `scene-graph-tf-absolute`,
`scene-graph-tf-relative`, `scene-graph-tf-absolute-map`, `scene-graph-reparent` and `prefix-scene-graph`
(lisp/rx/scenegraph.lisp:866-911 and 970-1092).

Transforms are the elements of a group `G`, so `normalize` does nothing; the motion of a joint is any function of
the configuration `Q`.  `D` is what else a frame carries (geometry, inertial data).  The set of frames is a list in
any order.  Recursion has a bound on its depth: `none` for every bound means that the code does not return, or
signals an error.  Left out: limits of configurations, drawing options, names of
configuration variables (so the configuration of a prefixed graph is the prefixed one).
-/
import Mathlib.Algebra.Group.Basic
import Mathlib.Algebra.Group.Defs

namespace Verif.LispSg

variable {G Q D : Type} [Group G]

/-- `scene-frame` (lisp/rx/scenegraph.lisp:326-331); `joint` is the motion about or along the axis, `none` for
fixed frames. -/
structure Frame (G Q D : Type) where
  parent : Option String
  joint : Option (Q → G)
  tf : G
  data : D

/-- `scene-graph` (lisp/rx/scenegraph.lisp:555-563): frames and allowed collisions. -/
structure SG (G Q D : Type) where
  frames : List (String × Frame G Q D)
  allowed : List (String × String)

def find : List (String × Frame G Q D) → String → Option (Frame G Q D)
  | [], _ => none
  | (m, f) :: l, n => if m = n then some f else find l n

/-- `tree-set-replace` of `%scene-graph-add-frame` (lisp/rx/scenegraph.lisp:641-645). -/
def put (l : List (String × Frame G Q D)) (n : String) (f : Frame G Q D) : List (String × Frame G Q D) :=
  (n, f) :: l.filter fun e => e.1 ≠ n

/-- `frame-name-global-p` (lisp/rx/scenegraph.lisp:318-320). -/
def global : Option String → Bool
  | none => true
  | some n => decide (n = "")

/-- `scene-frame-tf-local` (lisp/rx/scenegraph.lisp:970-987): joints need a configuration. -/
def tfLocal (f : Frame G Q D) (q : Option Q) : Option G :=
  match f.joint with
  | none => some f.tf
  | some mv => q.map fun q => f.tf * mv q

/-- `scene-graph-tf-absolute` (lisp/rx/scenegraph.lisp:1009-1034), with the hash table and the depth. -/
def tfAbsolute (sg : SG G Q D) (q : Option Q) (hash : String → Option G) : Nat → Option String → Option G
  | 0, _ => none
  | k + 1, name =>
      match name with
      | none => some 1
      | some n =>
          if global (some n) then some 1
          else match hash n with
            | some g => some g
            | none => (find sg.frames n).bind fun f => (tfLocal f q).bind fun l =>
                match f.parent with
                | some p => (tfAbsolute sg q hash k (some p)).map fun g => g * l
                | none => some l

/-- `scene-graph-tf-relative` (lisp/rx/scenegraph.lisp:1037-1052). -/
def tfRelative (sg : SG G Q D) (q : Option Q) (k : Nat) (parent child : Option String) : Option G :=
  (tfAbsolute sg q (fun _ => none) k parent).bind fun p =>
    (tfAbsolute sg q (fun _ => none) k child).map fun c => p⁻¹ * c

/-- The fold of `scene-graph-tf-absolute-map`. -/
def absMapLoop (sg : SG G Q D) (q : Option Q) (k : Nat) :
    List (String × Frame G Q D) → (String → Option G) → Option (String → Option G)
  | [], hash => some hash
  | (n, _) :: l, hash => (tfAbsolute sg q hash k (some n)).bind fun g =>
      absMapLoop sg q k l fun m => if m = n then some g else hash m

/-- `scene-graph-tf-absolute-map` (lisp/rx/scenegraph.lisp:1056-1068). -/
def absMap (sg : SG G Q D) (q : Option Q) (k : Nat) : Option (String → Option G) :=
  absMapLoop sg q k sg.frames fun _ => none

/-- `scene-graph-reparent` (lisp/rx/scenegraph.lisp:1071-1091). -/
def reparent (sg : SG G Q D) (q : Option Q) (k : Nat) (newParent : Option String) (n : String) (tf : Option G) :
    Option (SG G Q D) :=
  (match tf with
    | some t => some t
    | none => tfRelative sg q k newParent (some n)).bind fun t =>
  (find sg.frames n).bind fun f =>
    match f.joint with
    | some _ => none
    | none => some { sg with frames := put sg.frames n { f with parent := newParent, tf := t } }

/-- A frame of `prefix-scene-graph` (lisp/rx/scenegraph.lisp:876-891), with parents prefixed. -/
def prefixFrame (pre : String) (e : String × Frame G Q D) : String × Frame G Q D :=
  (pre ++ e.1, { e.2 with parent := match e.2.parent with
    | some p => some (pre ++ p)
    | none => some pre })

/-- `prefix-scene-graph` (lisp/rx/scenegraph.lisp:866-911).  The new scene graph is made of frames only.  The
frame of the prefix has the data `d`. -/
def prefixSg (pre : String) (sg : SG G Q D) (root : Option String) (tf : G) (d : D) : SG G Q D :=
  ⟨put ((sg.frames.map (prefixFrame pre)).foldr (fun e l => put l e.1 e.2) []) pre ⟨root, none, tf, d⟩, []⟩

end Verif.LispSg
