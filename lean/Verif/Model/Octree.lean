import Mathlib.Analysis.SpecialFunctions.Pow.Real
import Verif.Model.SgCopy
import Verif.Model.GeomOpt

/-!
# Model: octrees in a scene graph (src/rx/sg_octree.cpp)

The tree is what octomap's leaf iterator yields: a list of leaves in the order of iteration.  The
function has a variable of static storage duration, which is part of the state of the process here.
-/

namespace Verif.Octree

open Verif.Sg Verif.Tf

/-- A leaf of `octomap::OcTree` as seen by the iterator: `getOccupancy()`, the centre `getX()`,
`getY()`, `getZ()` and the side of its cube `getSize()`. -/
structure Leaf where
  occ : ℝ
  c : V3
  side : ℝ

/-- C `cbrt`. -/
noncomputable def cbrt (x : ℝ) : ℝ := if 0 ≤ x then x ^ (1 / 3 : ℝ) else -((-x) ^ (1 / 3 : ℝ))

/-- src/rx/sg_octree.cpp:62 `"%s/%ld"`. -/
def subName (name : String) (x : Nat) : String := name ++ "/" ++ toString x

/-- src/rx/sg_octree.cpp:64-67: the frame object of a leaf, by the constructor of a fixed frame
(src/rx/scenegraph.cpp:59-74). -/
noncomputable def leafFrame {G : Type} (parent n : String) (l : Leaf) : Frame (Obj G) :=
  ⟨n, parent, .fixed, "", ⟨mkBody qident l.c 0 ⟨0, 0, 0⟩, none, []⟩⟩

/-- The state of the loop: the static variable `dimension` (`none` until control first passes its
declaration), the counter `x` and the scene graph. -/
structure St (V : Type) where
  dim : Option ℝ
  x : Nat
  g : Graph (Obj (GeomOpt.Geom V))

/-- src/rx/sg_octree.cpp:69-76: the box of a leaf, when there are options.  The declaration of line 71
initialises `dimension` only once in the process. -/
noncomputable def addBox (opt : Option (GeomOpt.Opt ℝ)) (n : String) (l : Leaf) (s : St ℝ) : Option (St ℝ) :=
  match opt with
  | none => some s
  | some o =>
    let d := s.dim.getD (cbrt l.side)
    match addGeom s.g n (GeomOpt.geomBox o d d d) with
    | none => none
    | some g => some ⟨some d, s.x, g⟩

/-- src/rx/sg_octree.cpp:60-77: one turn of the loop. -/
noncomputable def leafStep (parent name : String) (opt : Option (GeomOpt.Opt ℝ)) (l : Leaf) (s : St ℝ) :
    Option (St ℝ) :=
  if l.occ > 1 / 2 then
    addBox opt (subName name s.x) l ⟨s.dim, s.x + 1, add s.g (leafFrame parent (subName name s.x) l)⟩
  else some s

/-- src/rx/sg_octree.cpp:57-78: the loop. -/
noncomputable def leafLoop (parent name : String) (opt : Option (GeomOpt.Opt ℝ)) : List Leaf → St ℝ → Option (St ℝ)
  | [], s => some s
  | l :: ls, s =>
    match leafStep parent name opt l s with
    | none => none
    | some s => leafLoop parent name opt ls s

/-- src/rx/sg_octree.cpp:49-79 `aa_rx_sg_add_octree`; `dim` is the static variable before the call, and
the result has that after it. -/
noncomputable def addOctree (dim : Option ℝ) (g : Graph (Obj (GeomOpt.Geom ℝ))) (parent name : String)
    (ls : List Leaf) (opt : Option (GeomOpt.Opt ℝ)) : Option (Option ℝ × Graph (Obj (GeomOpt.Geom ℝ))) :=
  (leafLoop parent name opt ls ⟨dim, 0, g⟩).map fun s => (s.dim, s.g)

end Verif.Octree
