/-
Animations from key frames of the Lisp library: maps of configurations, `joint-keyframe`, `keyframe-set`,
`keyframe-pair-find`, `keyframe-configuration-function`, the loops of `scene-graph-frame-animate` and
`scene-graph-time-animate`, and `%load-trajectory` (lisp/rx/animate.lisp:42-148, 318-376,
lisp/rx/trajectory.lisp:51-82, lisp/rx/scenegraph.lisp:383-413 and 957-961).

Tree maps of Sycamore are lists of pairs in ascending order of names; names have any linear order
(`frame-name-compare`).  Tree sets are search trees of any shape.  Numbers are of an ordered field; dividing by zero
is the error that SBCL signals.  `none` stands for a signalled error throughout.  The sort keeps the order of equal
elements, which Lisp's `sort` need not do.  Lines of files have been cut into words (`strip-hash-comment`,
`split-spaces`): `none` is a line with nothing but white space and comments.  Rendering a frame is left out: an
animation is the list of the numbers of its files with the configurations drawn in them.
-/
import Mathlib.Algebra.Order.Field.Basic
import Mathlib.Data.List.Sort

namespace Verif.Keyframe

variable {N K : Type} [LinearOrder N] [Field K] [LinearOrder K]

/-- Maps of configurations (lisp/rx/scenegraph.lisp:383-387). -/
abbrev Cfg (N K : Type) := List (N × K)

/-- `tree-map-insert`: keeps the order, replaces what is there. -/
def put : Cfg N K → N → K → Cfg N K
  | [], n, x => [(n, x)]
  | (m, y) :: l, n, x => if n < m then (n, x) :: (m, y) :: l else if n = m then (n, x) :: l else (m, y) :: put l n x

/-- `tree-map-find` without a default. -/
def find? : Cfg N K → N → Option K
  | [], _ => none
  | (m, y) :: l, n => if n = m then some y else find? l n

/-- `configuration-map-find`, `tree-map-find` with the default zero (lisp/rx/scenegraph.lisp:412-413). -/
def find (m : Cfg N K) (n : N) : K := (find? m n).getD 0

/-- `configuration-map-equal` (lisp/rx/scenegraph.lisp:399-410). -/
def cfgEqual (a b : Cfg N K) : Bool :=
  a.length = b.length && (a.zip b).all fun e => e.1.1 = e.2.1 && e.1.2 = e.2.2

/-- `pairlist-configuration-map` (lisp/rx/scenegraph.lisp:957-961): the fold ends with the shorter list. -/
def pairlist (names : List N) (xs : List K) (dflt : Cfg N K) : Cfg N K :=
  (names.zip xs).foldl (fun m e => put m e.1 e.2) dflt

/-- `joint-keyframe` (lisp/rx/animate.lisp:42-46). -/
structure Key (N K : Type) where
  time : K
  cfg : Cfg N K
  deriving DecidableEq

/-- `keyframe-pair-compare` (lisp/rx/animate.lisp:70-86); the assertions are in `pairOk`. -/
def pairCompare (a b : Key N K × Key N K) : Ordering :=
  if a.2.time < b.1.time ∨ a.2.time = b.1.time ∧ a.1.time < a.2.time then .lt
  else if b.2.time < a.1.time ∨ b.2.time = a.1.time ∧ b.1.time < b.2.time then .gt
  else .eq

/-- The assertions of `keyframe-pair-compare` about one argument (lisp/rx/animate.lisp:75-76). -/
def pairOk (a : Key N K × Key N K) : Prop := a.1.time ≤ a.2.time

/-- `(sort (copy-list keyframes) #'< :key #'keyframe-time)` (lisp/rx/animate.lisp:91). -/
def sortKeys (l : List (Key N K)) : List (Key N K) := l.insertionSort fun a b => a.time ≤ b.time

/-- The loop of `keyframe-set` under `clip-start` (lisp/rx/animate.lisp:91-95): the last key frame is compared with
the key frame after it, which is `nil`. -/
def clipLoop : List (Key N K) → Option (List (Key N K))
  | [] => some []
  | [_] => none
  | a :: b :: r => if cfgEqual a.cfg b.cfg then clipLoop (b :: r) else some (a :: b :: r)

/-- The pairs of neighbours (lisp/rx/animate.lisp:96-98). -/
def pairs : List (Key N K) → List (Key N K × Key N K)
  | [] => []
  | [_] => []
  | a :: b :: r => (a, b) :: pairs (b :: r)

/-- `(apply #'tree-set #'keyframe-pair-compare keyframe-pairs)`: a pair that compares equal to one in the set is not
inserted.  The elements in the order of the tree. -/
def insertAll (l : List (Key N K × Key N K)) : List (Key N K × Key N K) :=
  l.foldl (fun s p => if s.any fun q => pairCompare p q == .eq then s else s ++ [p]) []

/-- `keyframe-set` (lisp/rx/animate.lisp:88-99). -/
def keyframeSet (l : List (Key N K)) (clip : Bool) : Option (List (Key N K × Key N K)) :=
  (if clip then clipLoop (sortKeys l) else some (sortKeys l)).map fun k => insertAll (pairs k)

/-- Search trees, of any balance. -/
inductive Tree (α : Type)
  | nil
  | node (l : Tree α) (x : α) (r : Tree α)

/-- The elements of a tree from the left to the right. -/
def Tree.elems {α : Type} : Tree α → List α
  | .nil => []
  | .node l x r => l.elems ++ x :: r.elems

/-- `tree-set-find`. -/
def Tree.search {α : Type} (cmp : α → α → Ordering) (v : α) : Tree α → Option α
  | .nil => none
  | .node l x r =>
    match cmp v x with
    | .lt => l.search cmp v
    | .eq => some x
    | .gt => r.search cmp v

/-- `keyframe-pair-find` (lisp/rx/animate.lisp:110-114). -/
def pairFind (s : Tree (Key N K × Key N K)) (t : K) : Option (Key N K × Key N K) :=
  s.search pairCompare (⟨t, []⟩, ⟨t, []⟩)

/-- `linterp` (lisp/rx/animate.lisp:118-121). -/
def linterp (t t0 x0 t1 x1 : K) : Option K :=
  if t1 - t0 = 0 then none else some (x0 + (t - t0) * ((x1 - x0) / (t1 - t0)))

/-- The fold over the map of the end (lisp/rx/animate.lisp:141-148). -/
def blend (t t0 : K) (start : Cfg N K) (t1 : K) : Cfg N K → Cfg N K → Option (Cfg N K)
  | [], m => some m
  | (n, x) :: l, m => (linterp t t0 (find start n) t1 x).bind fun y => blend t t0 start t1 l (put m n y)

/-- `keyframe-configuration-function` (lisp/rx/animate.lisp:123-148): `some none` where it returns `nil`. -/
def configAt (s : Tree (Key N K × Key N K)) (off t : K) : Option (Option (Cfg N K)) :=
  match pairFind s (t + off) with
  | none => some none
  | some (a, b) =>
    if a.time ≤ t + off ∧ t + off ≤ b.time then (blend (t + off) a.time a.cfg b.time b.cfg []).map some else none

/-- The loop of `scene-graph-frame-animate` (lisp/rx/animate.lisp:318-342): frame `i` goes to the file numbered
`file + i`; `k` bounds the number of rounds. -/
def frameLoop (f : Nat → Option (Option (Cfg N K))) (file : Nat) : Nat → Nat → Option (List (Nat × Cfg N K))
  | 0, _ => none
  | k + 1, i =>
    match f i with
    | none => none
    | some none => some []
    | some (some c) => (frameLoop f file k (i + 1)).map fun l => (file + i, c) :: l

/-- `scene-graph-time-animate` (lisp/rx/animate.lisp:349-376). -/
def timeAnimate (f : K → Option (Option (Cfg N K))) (start fps : K) (file k : Nat) : Option (List (Nat × Cfg N K)) :=
  frameLoop (fun i => f (start + (i : K) * (1 / fps))) file k 0

/-- The search for the header (lisp/rx/trajectory.lisp:54-64): the names and the lines after it. -/
def header (isTime : N → Bool) : List (Option (List N)) → List N × List (Option (List N))
  | [] => ([], [])
  | none :: l => header isTime l
  | some [] :: l => ([], l)
  | some (w :: ws) :: l => (if isTime w then ws else w :: ws, l)

/-- A line of data (lisp/rx/trajectory.lisp:73-81). -/
def row (names : List N) (time : K) (step : Option K) (dflt : Cfg N K) (i : Nat) (xs : List K) : Option (Key N K) :=
  match step with
  | some s => some ⟨time + (i : K) * s, pairlist names xs dflt⟩
  | none =>
    match xs with
    | [] => none
    | x :: xs => some ⟨x, pairlist names xs dflt⟩

/-- The loop over the lines of data (lisp/rx/trajectory.lisp:67-81): `i` counts all lines. -/
def rows (parse : N → Option K) (names : List N) (time : K) (step : Option K) (dflt : Cfg N K) :
    Nat → List (Option (List N)) → Option (List (Key N K))
  | _, [] => some []
  | i, none :: l => rows parse names time step dflt (i + 1) l
  | i, some ws :: l =>
    (ws.mapM parse).bind fun xs => (row names time step dflt i xs).bind fun k =>
      (rows parse names time step dflt (i + 1) l).map fun ks => k :: ks

/-- The key frames of `%load-trajectory` (lisp/rx/trajectory.lisp:51-82), before `keyframe-set`. -/
def loadKeys (isTime : N → Bool) (parse : N → Option K) (names : List N) (time : K) (step : Option K)
    (dflt : Cfg N K) (lines : List (Option (List N))) : Option (List (Key N K)) :=
  match names with
  | [] =>
    let h := header isTime lines
    rows parse h.1 time step dflt 0 h.2
  | _ :: _ => rows parse names time step dflt 0 lines

end Verif.Keyframe
