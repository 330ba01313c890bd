import Verif.Model.Mp

/-!
# Motion planning in Python (python/amino/motionplanning.py)

On top of the context of motion planning (Model/Mp.lean). `nAll` is the number of configuration variables of
the scene graph. Assertions of the C++ code are on (`abort`). Simplification of the path, which Python turns
on, is taken as part of what the planner finds (`found`).
-/

namespace Verif.PyMp

open Verif.Mp Verif.Tf Verif.Sg Verif.Fcl

/-- A call returns, ends the process, or is undefined. -/
inductive Out (α : Type) where
  | ok (a : α)
  | abort
  | ub

/-- A `MotionPlan`, and the number of doubles of paths that were allocated and not released. -/
structure Py where
  mp : Ctx
  leaked : Nat

/-- motionplanning.py:53-54 `__init__`; `sg` is what the scene graph allows (src/rx/mp/scene_ompl.cpp:86-90). -/
def new (sg : ClSet) : Py := ⟨create sg, 0⟩

/-- motionplanning.py:74-75: a list as an array. -/
def toCfg (l : List ℝ) : Cfg := fun i => l.getD i 0

/-- src/rx/mp/scene_ompl.cpp:243-258: the array of the path, `nAll` doubles for each waypoint. -/
noncomputable def flat (nAll : Nat) (w : List Cfg) : List ℝ := w.flatMap fun c => (List.range nAll).map c

/-- motionplanning.py:91-96: `n` rows of `len` doubles; reading past the array is undefined. -/
def rows (len n : Nat) (a : List ℝ) : Out (List (List ℝ)) :=
  if a.length < n * len then .ub
  else .ok ((List.range n).map fun i => (List.range len).map fun j => a.getD (i * len + j) 0)

/-- motionplanning.py:85-98: after `aa_rx_mp_plan` (the array is never released). -/
noncomputable def planned (nAll len leaked : Nat) (r : (List Bool × Option (List Cfg)) × Ctx) :
    Out (Option (List (List ℝ)) × Py) :=
  match r.1.2 with
  | none => .ok (none, ⟨r.2, leaked⟩)
  | some w =>
    match rows len w.length (flat nAll w) with
    | .ok l => .ok (some l, ⟨r.2, leaked + w.length * nAll⟩)
    | .abort => .abort
    | .ub => .ub

/-- motionplanning.py:77-98: after `aa_rx_mp_set_goal`. -/
noncomputable def goalSet (e : Env) (nAll len leaked : Nat) (checks : List Cfg) (found : Option (List Cfg))
    (r : Bool × Ctx) : Out (Option (List (List ℝ)) × Py) :=
  if r.1 then
    match plan e r.2 checks found with
    | none => .ub
    | some r => planned nAll len leaked r
  else .ok (none, ⟨r.2, leaked⟩)

/-- motionplanning.py:61-98 `motion_plan`. `aa_rx_mp_set_start` (scene_ompl.cpp:105-126) reads `nAll` doubles
before it asserts the length (scene_state_validity_checker.cpp:89-94); `aa_rx_mp_set_goal` asserts its length
(scene_ompl.cpp:160-161). -/
noncomputable def motionPlan (e : Env) (nAll : Nat) (p : Py) (start goal : List ℝ) (checks : List Cfg)
    (found : Option (List Cfg)) : Out (Option (List (List ℝ)) × Py) :=
  if start.length < nAll then .ub
  else if start.length ≠ nAll then .abort
  else
    match setStart e p.mp (toCfg start) with
    | none => .ub
    | some m =>
      if goal.length ≠ e.sub.configCount then .abort
      else
        match setGoal e m (toCfg goal) with
        | none => .ub
        | some r => goalSet e nAll start.length p.leaked checks found r

end Verif.PyMp
