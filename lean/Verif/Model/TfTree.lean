/-
Trees of transforms of the Lisp library: `tf-tree-insert`, `tf-tree-remove`, `tf-tree-find`, `tf-tree-absolute-map`,
`tf-tree-absolute-tf` and products of tagged transforms (lisp/tf-type.lisp:314-412, lisp/tf-op.lisp:592-598).

A name is a string together with the object that holds it, since `eql` tells objects apart and maps and sets compare
strings.  Maps and sets of Sycamore are lists; `tree-set-intern` yields the object in the set.  Transforms are of any
monoid.  `none` is a signalled error, a failed assertion or recursion without end (the number given bounds its depth).
Frames have names; the name `nil` stands for the world as a parent only.
-/
import Mathlib.Algebra.Group.Basic

namespace Verif.TfTree

variable {G : Type} [Monoid G]

/-- A string and the object that holds it. -/
structure Name where
  str : String
  obj : Nat
  deriving DecidableEq

/-- `tf-tag` (lisp/tf-type.lisp:314-318). -/
structure Tag (G : Type) where
  parent : Option Name
  tf : G
  child : Name

/-- `tf-tree` (lisp/tf-type.lisp:338-342). -/
structure Tree (G : Type) where
  rel : List (String × Tag G)
  frames : List Name

/-- `make-tf-tree` (lisp/tf-type.lisp:344-348). -/
def empty : Tree G := ⟨[], []⟩

/-- `tree-map-find`. -/
def lookup : List (String × Tag G) → String → Option (Tag G)
  | [], _ => none
  | (k, t) :: l, f => if k = f then some t else lookup l f

/-- `tree-set-intern`: the set and the object in it. -/
def intern (s : List Name) (n : Name) : List Name × Name :=
  match s.find? fun m => m.str = n.str with
  | some m => (s, m)
  | none => (n :: s, n)

/-- `tf-tree-split-insert` and `tf-tree-insert` (lisp/tf-type.lisp:350-370). -/
def insert (t : Tree G) (x : Tag G) : Tree G :=
  let (s, parent) := match x.parent with
    | none => (t.frames, none)
    | some p => ((intern t.frames p).1, some (intern t.frames p).2)
  let (s, child) := intern s x.child
  ⟨(child.str, ⟨parent, x.tf, child⟩) :: t.rel.filter fun e => e.1 ≠ child.str, s⟩

/-- `tf-tree-remove` (lisp/tf-type.lisp:372-375). -/
def remove (t : Tree G) (f : String) : Tree G :=
  ⟨t.rel.filter fun e => e.1 ≠ f, t.frames.filter fun n => n.str ≠ f⟩

/-- `tf-tree-find` (lisp/tf-type.lisp:377-381): `some none` where there is no such frame. -/
def find (t : Tree G) (f : String) : Option (Option (Tag G)) :=
  match lookup t.rel f with
  | none => some none
  | some x => if f = x.child.str then some (some x) else none

/-- The product of tagged transforms (lisp/tf-op.lisp:592-598). -/
def mul (a b : Tag G) : Option (Tag G) :=
  if some a.child = b.parent then some ⟨a.parent, a.tf * b.tf, b.child⟩ else none

/-- `rec` and `rec-insert` of `tf-tree-absolute-map` (lisp/tf-type.lisp:385-399). -/
def absRec (r : Tree G) : Nat → Tree G → String → Option (Tree G)
  | 0, _, _ => none
  | k + 1, a, f =>
    match find a f with
    | none => none
    | some (some _) => some a
    | some none =>
      match find r f with
      | some (some x) =>
        match x.parent with
        | none => some (insert a x)
        | some p =>
          match absRec r k a p.str with
          | none => none
          | some a =>
            match find a p.str with
            | some (some y) => (mul y x).map (insert a)
            | _ => none
      | _ => none

/-- The fold of `tf-tree-absolute-map` (lisp/tf-type.lisp:404-407). -/
def absFold (r : Tree G) (k : Nat) : List (String × Tag G) → Tree G → Option (Tree G)
  | [], a => some a
  | (f, x) :: l, a => if f = x.child.str then (absRec r k a f).bind (absFold r k l) else none

/-- `tf-tree-absolute-map` without a frame (lisp/tf-type.lisp:383-407). -/
def absMap (r : Tree G) (k : Nat) : Option (Tree G) := absFold r k r.rel empty

/-- `tf-tree-absolute-tf` (lisp/tf-type.lisp:409-412). -/
def absTf (r : Tree G) (k : Nat) (f : String) : Option (Option (Tag G)) :=
  (absRec r k empty f).bind fun a => find a f

end Verif.TfTree
