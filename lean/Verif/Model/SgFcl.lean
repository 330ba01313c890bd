import Verif.Model.SgCl
import Verif.Model.Tf

/-!
# Model: collision checking with the FCL library (src/rx/amino_fcl.cpp)

`double` is `ℝ`.  The library itself is left out: its narrow phase is given by functions for the
answers of `fcl::collide` and `fcl::distance`, its broad phase by the list of pairs for which the
manager calls the callback.  `none` is a failed assertion, `abort` or an access out of bounds.
-/

namespace Verif.Fcl

open Verif.Tf Verif.Sg

/-! ## Objects -/

/-- include/amino/rx/scene_geom.h:219-287: shapes of geometry objects. -/
inductive Shape
  | mesh (verts : List V3) (tris : List (Nat × Nat × Nat))
  | box (dim : V3)
  | sphere (radius : ℝ)
  | cylinder (height radius : ℝ)
  | cone (height startRadius endRadius : ℝ)
  | grid (dim0 dim1 delta0 delta1 width : ℝ)
  | torus (angle majorRadius minorRadius : ℝ)

/-- `struct aa_rx_geom`: the shape and the options that matter here. -/
structure Geom where
  collision : Bool
  scale : ℝ
  shape : Shape

/-- The constructors of FCL shapes that are used. -/
inductive FclGeom
  | bvh (verts : List V3) (tris : List (Nat × Nat × Nat))
  | box (x y z : ℝ)
  | sphere (r : ℝ)
  | cylinder (r lz : ℝ)

/-- src/rx/amino_fcl.cpp:91-141 `cl_init_mesh`. -/
def initMesh (scale : ℝ) (verts : List V3) (tris : List (Nat × Nat × Nat)) : FclGeom :=
  .bvh (verts.map fun v => ⟨scale * v.x, scale * v.y, scale * v.z⟩) tris

/-- src/rx/amino_fcl.cpp:143-215 `cl_init_helper`: the collision object of a geometry object, which is
made once and kept. -/
def initHelper (g : Geom) : Option FclGeom :=
  if g.collision then
    match g.shape with
    | .mesh v t => some (initMesh g.scale v t)
    | .box d => some (.box (g.scale * d.x) (g.scale * d.y) (g.scale * d.z))
    | .sphere r => some (.sphere (g.scale * r))
    | .cylinder h r => some (.cylinder (g.scale * r) (g.scale * h))
    | .cone _ _ _ => none
    | .grid _ _ _ _ _ => none
    | .torus _ _ _ => none
  else none

/-- An `fcl::CollisionObject` with its user data: frame number and geometry. -/
structure Obj where
  frame : Nat
  geom : Geom
  fcl : FclGeom

/-- src/rx/amino_fcl.cpp:251-264 `cl_create_helper`. -/
def createHelper (i : Nat) (g : Geom) : Option Obj := (initHelper g).map fun f => ⟨i, g, f⟩

/-- src/rx/amino_fcl.cpp:279, sg_api.cpp:465-482 `aa_rx_sg_map_geom`: the objects of a scene, given
the geometry of its frames in the order of their numbers. -/
def objectsFrom : Nat → List (List Geom) → List Obj
  | _, [] => []
  | i, gs :: r => gs.filterMap (createHelper i) ++ objectsFrom (i + 1) r

/-- The objects of a collision context (`cl->objects`). -/
def objects (scene : List (List Geom)) : List Obj := objectsFrom 0 scene

/-- src/rx/amino_fcl.cpp:379-414 `s_update_tf`; include/amino/rx/scene_fcl.h:79-96 `qutr2fcltf`;
include/amino/eigen_compat.hpp:83-122: the transform given to FCL. -/
noncomputable def updateTf (tf : Nat → Qutr) (o : Obj) : Tfm :=
  match o.geom.shape with
  | .cylinder h _ => qutr2tfmat (qutrMul (tf o.frame) ⟨qident, ⟨0, 0, h / 2⟩⟩)
  | _ => qutr2tfmat (tf o.frame)

/-! ## Checking -/

/-- src/rx/amino_fcl.cpp:431, 601: the manager calls the callback for pairs of objects until it
answers `true`. -/
def visit {σ : Type} (cb : σ → Nat → Nat → Option (σ × Bool)) : List (Nat × Nat) → σ → Option σ
  | [], s => some s
  | p :: l, s =>
    match cb s p.1 p.2 with
    | none => none
    | some (s', true) => some s'
    | some (s', false) => visit cb l s'

/-- src/rx/amino_fcl.cpp:328-332 `struct cl_check_data`: result and set of collisions. -/
structure CheckData where
  result : Bool
  set : Option ClSet

/-- src/rx/amino_fcl.cpp:334-376 `cl_check_callback`.  `frame` is the user data of the objects, `hit`
the answer of `fcl::collide` (a default request asks for one contact). -/
def checkCallback (allowed : ClSet) (frame : Nat → Nat) (hit : Nat → Nat → Bool) (d : CheckData)
    (o1 o2 : Nat) : Option (CheckData × Bool) :=
  let id1 := frame o1
  let id2 := frame o2
  if id1 = id2 then some (d, false)
  else
    match clGet allowed id1 id2 with
    | none => none
    | some true => some (d, false)
    | some false =>
      if hit o1 o2 then
        match d.set with
        | none => some (⟨true, none⟩, true)
        | some s => (clSet s id1 id2 true).map fun s' => (⟨true, some s'⟩, false)
      else some (d, false)

/-- src/rx/amino_fcl.cpp:417-433 `s_cl_check` after the update of the transforms. -/
def check (allowed : ClSet) (frame : Nat → Nat) (hit : Nat → Nat → Bool) (visits : List (Nat × Nat))
    (set : Option ClSet) : Option CheckData :=
  visit (checkCallback allowed frame hit) visits ⟨false, set⟩

/-- The answer of `fcl::collide` for two objects of a list at their transforms. -/
def hitAt (collide : FclGeom × Tfm → FclGeom × Tfm → Bool) (objs : List (FclGeom × Tfm))
    (i j : Nat) : Bool :=
  match objs[i]?, objs[j]? with
  | some a, some b => collide a b
  | _, _ => false

/-- src/rx/amino_fcl.cpp:447-457 `aa_rx_cl_check` (440-445 `check_helper_array`) and 465-470
`aa_rx_cl_check_fk` on a context of the scene; `tf` are the poses given for the frames. -/
noncomputable def clCheck (collide : FclGeom × Tfm → FclGeom × Tfm → Bool) (scene : List (List Geom))
    (allowed : ClSet) (tf : Nat → Qutr) (visits : List (Nat × Nat)) (set : Option ClSet) :
    Option CheckData :=
  let os := objects scene
  check allowed (fun i => (os[i]?.map (·.frame)).getD 0)
    (hitAt collide (os.map fun o => (o.fcl, updateTf tf o))) visits set

/-! ## Allowing the collisions of a configuration -/

/-- src/rx/amino_fcl.cpp:472-498 `aa_rx_sg_get_collision`. -/
def getCollision (c : ColGraph) (frame : Nat → Nat) (hit : Nat → Nat → Bool)
    (visits : List (Nat × Nat)) (set : ClSet) : Option ClSet :=
  match clContext c with
  | none => none
  | some allowed =>
    match check allowed frame hit visits (some set) with
    | some ⟨_, some s⟩ => clMerge s (clCreate (frameCount c.g))
    | _ => none

/-- src/rx/amino_fcl.cpp:505-511: the pairs in the order of the loops. -/
def pairsBelow (n : Nat) : List (Nat × Nat) :=
  (List.range n).flatMap fun i => (List.range i).map fun j => (i, j)

/-- src/rx/amino_fcl.cpp:505-511: the loops. -/
def allowPairs (s : ClSet) : List (Nat × Nat) → ColGraph → Option ColGraph
  | [], c => some c
  | p :: l, c =>
    match clGet s p.1 p.2 with
    | none => none
    | some true => (allowId c p.1 p.2 true).bind (allowPairs s l)
    | some false => allowPairs s l c

/-- src/rx/amino_fcl.cpp:500-515 `aa_rx_sg_allow_config`. -/
def allowConfig (c : ColGraph) (frame : Nat → Nat) (hit : Nat → Nat → Bool)
    (visits : List (Nat × Nat)) : Option ColGraph :=
  (getCollision c frame hit visits (clCreate (frameCount c.g))).bind fun s =>
    allowPairs s (pairsBelow (frameCount c.g)) c

/-! ## Distances -/

/-- src/rx/amino_fcl.cpp:530-534 `struct dist_ent`. -/
structure Ent where
  dist : ℝ
  point0 : V3
  point1 : V3

/-- src/rx/amino_fcl.cpp:536-543 `struct aa_rx_cl_dist`. -/
structure DistData where
  inCollision : Bool
  data : Nat → Ent

/-- `fcl::DistanceResult` and the contacts of `fcl::collide` for a pair of objects. -/
structure FclDist where
  minDistance : ℝ
  near0 : V3
  near1 : V3
  contacts : List (ℝ × V3 × V3)

/-- src/rx/amino_fcl.cpp:546-553 `s_get_dist_ent`: the position in the array of `n * n` entries. -/
def entPos (n : Nat) (id1 id2 : Int) : Option Nat :=
  if id1 ≥ id2 ∧ 0 ≤ id2 ∧ id1 < n then some (id2.toNat * n + id1.toNat) else none

/-- src/rx/amino_fcl.cpp:555-567 `aa_rx_cl_dist_create`; `in_collision` is not initialised. -/
def distCreate (garbage : Bool) : DistData := ⟨garbage, fun _ => ⟨0, ⟨0, 0, 0⟩, ⟨0, 0, 0⟩⟩⟩

/-- src/rx/amino_fcl.cpp:586-598: the loops that prepare the table.  Points outside the diagonal
stay. -/
def distInit (dblMax : ℝ) (n : Nat) (d : Nat → Ent) : Nat → Ent :=
  (List.range n).foldl (fun d j =>
    (List.range' (j + 1) (n - (j + 1))).foldl
      (fun d i => Function.update d (j * n + i) { d (j * n + i) with dist := dblMax })
      (Function.update d (j * n + j) ⟨0, ⟨0, 0, 0⟩, ⟨0, 0, 0⟩⟩)) d

/-- src/rx/amino_fcl.cpp:682-694: the deepest contact. -/
noncomputable def deepest : List (ℝ × V3 × V3) → ℝ × V3 × V3 → ℝ × V3 × V3
  | [], a => a
  | c :: l, a =>
    if a.1 < c.1 then deepest l (c.1, c.2.1, vadd (vscal c.1 c.2.2) c.2.1) else deepest l a

/-- src/rx/amino_fcl.cpp:659-696: distance and points for a pair of objects. -/
noncomputable def pairEnt (r : FclDist) : Ent :=
  if r.minDistance ≤ 0 then
    let b := deepest r.contacts (0, r.near0, r.near1)
    ⟨-b.1, b.2.1, b.2.2⟩
  else ⟨r.minDistance, r.near0, r.near1⟩

/-- src/rx/amino_fcl.cpp:629-714 `cl_dist_callback`. -/
noncomputable def distCallback (allowed : ClSet) (n : Nat) (frame : Nat → Nat) (fdist : Nat → Nat → FclDist)
    (d : DistData) (a b : Nat) : Option (DistData × Bool) :=
  let o1 := if frame a < frame b then b else a
  let o2 := if frame a < frame b then a else b
  if frame a = frame b then some (d, false)
  else
    match clGet allowed (frame o1) (frame o2) with
    | none => none
    | some true => some (d, false)
    | some false =>
      match entPos n (frame o1) (frame o2) with
      | none => none
      | some k =>
        let e := pairEnt (fdist o1 o2)
        let col := d.inCollision || decide ((fdist o1 o2).minDistance ≤ 0)
        if (d.data k).dist > e.dist then some (⟨col, Function.update d.data k e⟩, false)
        else some (⟨col, d.data⟩, false)

/-- src/rx/amino_fcl.cpp:576-605 `aa_rx_cl_dist_check`. -/
noncomputable def distCheck (dblMax : ℝ) (allowed : ClSet) (n : Nat) (frame : Nat → Nat)
    (fdist : Nat → Nat → FclDist) (visits : List (Nat × Nat)) (d : DistData) : Option DistData :=
  visit (distCallback allowed n frame fdist) visits ⟨false, distInit dblMax n d.data⟩

/-- The answer of `fcl::distance` and `fcl::collide` for two objects of a list at their transforms. -/
def distAt (fdist : FclGeom × Tfm → FclGeom × Tfm → FclDist) (objs : List (FclGeom × Tfm))
    (i j : Nat) : FclDist :=
  match objs[i]?, objs[j]? with
  | some a, some b => fdist a b
  | _, _ => ⟨0, ⟨0, 0, 0⟩, ⟨0, 0, 0⟩, []⟩

/-- `aa_rx_cl_dist_check` on a context of the scene; `tf` are the poses of the frames in `fk`. -/
noncomputable def clDistCheck (dblMax : ℝ) (fdist : FclGeom × Tfm → FclGeom × Tfm → FclDist)
    (scene : List (List Geom)) (allowed : ClSet) (tf : Nat → Qutr) (visits : List (Nat × Nat))
    (d : DistData) : Option DistData :=
  let os := objects scene
  distCheck dblMax allowed scene.length (fun i => (os[i]?.map (·.frame)).getD 0)
    (distAt fdist (os.map fun o => (o.fcl, updateTf tf o))) visits d

/-- src/rx/amino_fcl.cpp:747-755 `aa_rx_cl_dist_get_dist`, 607-614 `s_normalize_ids`. -/
def getDist (n : Nat) (d : DistData) (id0 id1 : Int) : Option ℝ :=
  let i0 := if id0 < id1 then id1 else id0
  let i1 := if id0 < id1 then id0 else id1
  (entPos n i0 i1).map fun k => (d.data k).dist

/-- src/rx/amino_fcl.cpp:757-780 `aa_rx_cl_dist_get_points`: distance, `point0` and `point1`. -/
def getPoints (n : Nat) (d : DistData) (id0 id1 : Int) : Option (ℝ × V3 × V3) :=
  if id0 > id1 then
    (entPos n id0 id1).map fun k => ((d.data k).dist, (d.data k).point0, (d.data k).point1)
  else
    (entPos n id1 id0).map fun k => ((d.data k).dist, (d.data k).point1, (d.data k).point0)

/-- src/rx/amino_fcl.cpp:724-742: the passes of the loop for the frames in the list.  The last component
is what has been stored for the caller. -/
noncomputable def minLoop (n : Nat) (d : DistData) (id0 : Int) :
    List Nat → ℝ × Option (Nat × V3 × V3) → Option (ℝ × Option (Nat × V3 × V3))
  | [], a => some a
  | t :: l, a =>
    if id0 = t then minLoop n d id0 l a
    else
      match getDist n d id0 t, getPoints n d id0 t with
      | some x, some p => minLoop n d id0 l (if x < a.1 then (x, some (t, p.2.1, p.2.2)) else a)
      | _, _ => none

/-- src/rx/amino_fcl.cpp:716-744 `aa_rx_cl_dist_get_min_dist`, with pointers for the frame and the
points. -/
noncomputable def getMinDist (dblMax : ℝ) (n : Nat) (d : DistData) (id0 : Int) :
    Option (ℝ × Option (Nat × V3 × V3)) :=
  minLoop n d id0 (List.range n) (dblMax, none)

end Verif.Fcl
