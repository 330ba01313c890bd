import Verif.Model.Sg
import Mathlib.Logic.Function.Basic

/-!
# Model: configuration limits of a scene graph (src/rx/sg_api.cpp, src/rx/scenegraph.cpp)

The limit structures live in a heap (`heap`, a pointer is an index into it).  `none` is a null pointer
where the code has a pointer, and undefined behaviour as a result.
-/

namespace Verif.Sg

/-- The four kinds of limits (src/rx/sg_api.cpp:575-578, 597-600). -/
inductive LimKind
  | pos
  | vel
  | acc
  | eff
  deriving DecidableEq, Repr

/-- include/amino/rx/scenegraph_internal.h:42-59 `struct aa_rx_config_limits`: a kind is `none` when
its `has_` bit is clear. -/
structure Lim (K : Type) where
  pos : Option (K × K)
  vel : Option (K × K)
  acc : Option (K × K)
  eff : Option (K × K)
  deriving DecidableEq, Repr

/-- `AA_NEW0(struct aa_rx_config_limits)`. -/
def Lim.zero {K : Type} : Lim K := ⟨none, none, none, none⟩

/-- src/rx/sg_api.cpp:588-591: the members of one kind. -/
def Lim.get {K : Type} (l : Lim K) : LimKind → Option (K × K)
  | .pos => l.pos
  | .vel => l.vel
  | .acc => l.acc
  | .eff => l.eff

/-- src/rx/sg_api.cpp:570-572: the assignments for one kind. -/
def Lim.set {K : Type} (l : Lim K) (k : LimKind) (lo hi : K) : Lim K :=
  match k with
  | .pos => { l with pos := some (lo, hi) }
  | .vel => { l with vel := some (lo, hi) }
  | .acc => { l with acc := some (lo, hi) }
  | .eff => { l with eff := some (lo, hi) }

/-- The scene graph with the members for limits (include/amino/rx/scenegraph_internal.h:185-192):
`lmap` is `limits_map` (a name that is absent and one that maps to null are alike for the code),
`limits` is the vector `limits`. -/
structure LGraph (P K : Type) where
  g : Graph P
  heap : List (Lim K)
  lmap : String → Option Nat
  limits : List (Option Nat)

section
variable {P K : Type}

/-- A new scene graph. -/
def lcreate : LGraph P K := ⟨create, [], fun _ => none, []⟩

/-- src/rx/sg_api.cpp:548-560 `get_limits`. -/
def getLimits (s : LGraph P K) (c : String) : LGraph P K × Nat :=
  match s.lmap c with
  | some p => (s, p)
  | none =>
    ({ s with heap := s.heap ++ [Lim.zero], lmap := Function.update s.lmap c (some s.heap.length) },
      s.heap.length)

/-- src/rx/sg_api.cpp:562-573 `aa_rx_sg_set_limit_pos` (`_vel`, `_acc`, `_eff`).  The indices are not
marked as dirty. -/
def setLimit (s : LGraph P K) (k : LimKind) (c : String) (lo hi : K) : LGraph P K :=
  let r := getLimits s c
  { r.1 with heap := r.1.heap.modify r.2 (fun l => l.set k lo hi) }

/-- src/rx/sg_api.cpp:580-595 `aa_rx_sg_get_limit_pos` (`_vel`, `_acc`, `_eff`): `some none` is the
result -1, where `*min` and `*max` are not written; `none` is an access outside the vector. -/
def getLimit (s : LGraph P K) (k : LimKind) (id : Int) : Option (Option (K × K)) :=
  if id < 0 then none
  else
    match s.limits[id.toNat]? with
    | none => none
    | some none => some none
    | some (some p) => (s.heap[p]?).map (·.get k)

/-- src/rx/scenegraph.cpp:305-376 `SceneGraph::index` with the member `limits`: it is cleared at line
336 and grows at line 363 together with `config_rmap` (line 362), unless the function returns
before. -/
def lindex (s : LGraph P K) : Option (Status × LGraph P K) :=
  match index s.g with
  | none => none
  | some (st, g') =>
    if s.g.dirty ∧ st = Status.ok then
      some (st, { s with g := g', limits := g'.configRmap.map s.lmap })
    else some (st, { s with g := g' })

/-- Calls that change frames, indices or limits. -/
inductive LOp (P K : Type)
  | sg (o : Op P)
  | set (k : LimKind) (c : String) (lo hi : K)

/-- One call. -/
def lstep (s : LGraph P K) : LOp P K → Option (LGraph P K)
  | .sg Op.init => (lindex s).map (·.2)
  | .sg o => (step s.g o).map (fun g' => { s with g := g' })
  | .set k c lo hi => some (setLimit s k c lo hi)

/-- A history of calls. -/
def lrun (s : LGraph P K) : List (LOp P K) → Option (LGraph P K)
  | [] => some s
  | o :: os =>
    match lstep s o with
    | none => none
    | some s' => lrun s' os

end
end Verif.Sg
