import Verif.Model.SgFcl
import Verif.Model.SgSub

/-!
# Model: motion planning contexts (src/rx/mp)

The planners of OMPL are left out: a call of `aa_rx_mp_plan` is given the states that the planner
checks and the path that it finds, if it finds one.  Simplification of paths is off.  Forward
kinematics is an arbitrary function from configurations to poses (C36 is about it), FCL is as in
`Model/SgFcl.lean`.  `none` is undefined behaviour or a failed assertion.
-/

namespace Verif.Mp

open Verif.Tf Verif.Sg Verif.Fcl

/-- A configuration or a state: values of the variables by number. -/
abbrev Cfg := Nat → ℝ

/-- What does not change: geometry, sub-scenegraph, forward kinematics and libraries.  `pick` is
`ompl::base::ProblemDefinition::getSolutionPath`, which gives one of the solutions. -/
structure Env where
  scene : List (List Geom)
  sub : Sub
  fk : Cfg → Nat → Qutr
  collide : FclGeom × Tfm → FclGeom × Tfm → Bool
  visits : (Nat → Qutr) → List (Nat × Nat)
  pick : List (List Cfg) → Option (List Cfg)

/-- The goal of the problem definition; workspace goals are objects with a number. -/
inductive Goal
  | unset
  | joint (s : Cfg)
  | ws (id : Nat)

/-- include/amino/rx/ompl/scene_ompl_internal.h:73-98 `struct aa_rx_mp`,
include/amino/rx/ompl/scene_state_space.h:152-155, scene_state_validity_checker.h:69-77.
`sg` is what new collision contexts of the scene graph allow, `space` and `cl` are the allowed sets of
the state space and of the collision context of the validity checker, `qAll` is `q_all` of the
checker, which is not initialised at first, `starts` and `sols` are the start states and solutions of
the problem definition. -/
structure Ctx where
  sg : ClSet
  space : ClSet
  cl : ClSet
  qAll : Option Cfg
  collisions : Option ClSet
  starts : List Cfg
  configStart : Option Cfg
  goal : Goal
  lazy : Option Nat
  nextGoal : Nat
  sols : List (List Cfg)

/-- src/rx/mp/scene_state_validity_checker.cpp:96-99 `sgStateValidityChecker::allow`. -/
def allow (m : Ctx) : Ctx := { m with cl := clFill m.cl m.space }

/-- src/rx/mp/scene_ompl.cpp:68-83 `aa_rx_mp::aa_rx_mp`, scene_state_space.cpp:53-89
`sgStateSpace::sgStateSpace` (without the bounds), scene_state_validity_checker.cpp:52-60. -/
def create (sg : ClSet) : Ctx := allow ⟨sg, sg, sg, none, none, [], none, .unset, none, 0, []⟩

/-- src/rx/mp/scene_state_validity_checker.cpp:68-86 `sgStateValidityChecker::isValid`,
scene_state_space.cpp:99-119 `sgStateSpace::get_tf_abs`. -/
noncomputable def isValid (e : Env) (m : Ctx) (s : Cfg) : Option (Bool × Ctx) :=
  m.qAll.bind fun q =>
    (configSet e.sub s 0 0 e.sub.configCount 0 q).bind fun q' =>
      (clCheck e.collide e.scene m.cl (e.fk q') (e.visits (e.fk q')) m.collisions).map fun d =>
        (!d.result, { m with collisions := d.set })

/-- src/rx/amino_fcl.cpp:472-498 `aa_rx_sg_get_collision` for a scene graph whose new contexts allow
`sg`. -/
noncomputable def getCollision (e : Env) (sg : ClSet) (q : Cfg) (set : ClSet) : Option ClSet :=
  (clCheck e.collide e.scene sg (e.fk q) (e.visits (e.fk q)) (some set)).bind fun d =>
    d.set.bind fun s => clMerge s (clCreate e.scene.length)

/-- src/rx/mp/scene_ompl.cpp:128-138 `aa_rx_mp_allow_config`; scene_state_space.h:113-115
`sgStateSpace::allow_config`; scene_state_validity_checker.cpp:89-94 `set_start`. -/
noncomputable def allowConfig (e : Env) (m : Ctx) (q : Cfg) : Option Ctx :=
  (getCollision e m.sg q m.space).map fun s => allow { m with space := s, qAll := some q }

/-- src/rx/mp/scene_ompl.cpp:105-126 `aa_rx_mp_set_start`. -/
noncomputable def setStart (e : Env) (m : Ctx) (q : Cfg) : Option Ctx :=
  (allowConfig e m q).bind fun m =>
    (configGet e.sub q e.sub.configCount 0 (fun _ => 0)).map fun s =>
      { m with starts := m.starts ++ [s], configStart := some q }

/-- src/rx/mp/scene_ompl.cpp:141-149 `aa_rx_mp_allow_collision`. -/
def allowCollision (m : Ctx) (i j : Int) (b : Bool) : Option Ctx :=
  (clSet m.space i j b).map fun s => allow { m with space := s }

/-- src/rx/mp/scene_ompl.cpp:302-306 `aa_rx_mp_get_allowed`, with `aa_rx_cl_set_set` on the result. -/
def editAllowed (m : Ctx) (i j : Int) (b : Bool) : Option Ctx :=
  (clSet m.space i j b).map fun s => { m with space := s }

/-- src/rx/mp/scene_ompl.cpp:151-172 `aa_rx_mp_set_goal`: whether it returns `AA_RX_OK`.  The former
goal is deleted. -/
noncomputable def setGoal (e : Env) (m : Ctx) (s : Cfg) : Option (Bool × Ctx) :=
  (isValid e (allow m) s).map fun r => if r.1 then (true, { r.2 with goal := .joint s }) else r

/-- src/rx/mp/workspace_goal.cpp:197-207 `aa_rx_mp_set_wsgoal`. -/
def setWsgoal (m : Ctx) : Ctx :=
  { m with goal := .ws m.nextGoal, lazy := some m.nextGoal, nextGoal := m.nextGoal + 1 }

/-- src/rx/mp/scene_ompl.cpp:272-293 `aa_rx_mp_set_track_collisions`. -/
def setTrack (e : Env) (m : Ctx) (b : Bool) : Ctx :=
  { m with collisions := if b then some (clCreate e.scene.length) else none }

/-- States checked by a planner, one after the other. -/
noncomputable def checkAll (e : Env) : List Cfg → Ctx → Option (List Bool × Ctx)
  | [], m => some ([], m)
  | s :: l, m =>
    (isValid e m s).bind fun r => (checkAll e l r.2).map fun r' => (r.1 :: r'.1, r'.2)

/-- src/rx/mp/scene_ompl.cpp:250-258: the waypoints of a path. -/
noncomputable def fill (e : Env) (q : Cfg) : List Cfg → Option (List Cfg)
  | [] => some []
  | s :: l =>
    (configSet e.sub s 0 0 e.sub.configCount 0 q).bind fun p => (fill e q l).map (p :: ·)

/-- src/rx/mp/scene_ompl.cpp:208-211: forgetting the tracked collisions. -/
def clearTracked (m : Ctx) : Option Ctx :=
  match m.collisions with
  | none => some m
  | some c => (clClear c).map fun c => { m with collisions := some c }

/-- src/rx/mp/scene_ompl.cpp:225-235: whether the workspace goal that sampling is started on still
exists. -/
def lazyAlive (m : Ctx) : Bool :=
  match m.lazy, m.goal with
  | none, _ => true
  | some i, .ws j => decide (i = j)
  | some _, _ => false

/-- src/rx/mp/scene_ompl.cpp:194-263 `aa_rx_mp_plan`: results of the checks and the path, `none` being
`AA_RX_NO_SOLUTION`.  A planner adds the path that it has found to the solutions. -/
noncomputable def plan (e : Env) (m : Ctx) (checks : List Cfg) (found : Option (List Cfg)) :
    Option ((List Bool × Option (List Cfg)) × Ctx) :=
  (clearTracked (allow m)).bind fun m =>
    if lazyAlive m then
      (checkAll e checks m).bind fun r =>
        let m := { r.2 with sols := r.2.sols ++ found.toList }
        match e.pick m.sols with
        | none => some ((r.1, none), m)
        | some path => m.configStart.bind fun q => (fill e q path).map fun l => ((r.1, some l), m)
    else none

/-! ## Histories -/

inductive Op
  | setStart (q : Cfg)
  | allowConfig (q : Cfg)
  | allowCollision (i j : Int) (b : Bool)
  | editAllowed (i j : Int) (b : Bool)
  | setGoal (s : Cfg)
  | setWsgoal
  | track (b : Bool)
  | plan (checks : List Cfg) (found : Option (List Cfg))

/-- What a call returns. -/
inductive Res
  | unit
  | goal (ok : Bool)
  | plan (checks : List Bool) (path : Option (List Cfg))

noncomputable def step (e : Env) (m : Ctx) : Op → Option (Res × Ctx)
  | .setStart q => (setStart e m q).map fun m => (.unit, m)
  | .allowConfig q => (allowConfig e m q).map fun m => (.unit, m)
  | .allowCollision i j b => (allowCollision m i j b).map fun m => (.unit, m)
  | .editAllowed i j b => (editAllowed m i j b).map fun m => (.unit, m)
  | .setGoal s => (setGoal e m s).map fun r => (.goal r.1, r.2)
  | .setWsgoal => some (.unit, setWsgoal m)
  | .track b => some (.unit, setTrack e m b)
  | .plan c f => (plan e m c f).map fun r => (.plan r.1.1 r.1.2, r.2)

noncomputable def run (e : Env) : List Op → Ctx → Option (List Res × Ctx)
  | [], m => some ([], m)
  | o :: l, m => (step e m o).bind fun r => (run e l r.2).map fun r' => (r.1 :: r'.1, r'.2)

end Verif.Mp
