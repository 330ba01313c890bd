import Verif.Model.Mp
import Verif.Prop.FclCheck
import Verif.Proof.SgSub

/-!
# C90: a planner allows the collisions that it was told to allow, and finds all others
# C91: planned paths
-/

namespace Verif.Mp

open Verif.Tf Verif.Sg Verif.Fcl

/-! ## Specification -/

/-- A configuration with the variables of the sub-scenegraph replaced. -/
def put (sub : Sub) (s q : Cfg) : Cfg := fun c =>
  match (List.range sub.configCount).find? (fun j => decide (sub.configs j = c)) with
  | some j => s j
  | none => q c

/-- The pairs of frames that overlap in a configuration. -/
def Touch (e : Env) (q : Cfg) (p : Sym2 Nat) : Prop :=
  ∃ a b, p = s(a, b) ∧ a ≠ b ∧ Overlap e.scene (e.fk q) a b

/-- The pairs that must not overlap, but do. -/
def Clash (e : Env) (A : Sym2 Nat → Prop) (q : Cfg) (p : Sym2 Nat) : Prop := ¬ A p ∧ Touch e q p

/-- State of the specification: allowed pairs, last configuration given, start, whether a workspace
goal has been set, tracked collisions. -/
structure Spec where
  A : Sym2 Nat → Prop
  given : Option Cfg
  start : Option Cfg
  ws : Bool
  tracked : Option (Sym2 Nat → Prop)

/-- All collisions at a given configuration are allowed; the last call counts for a pair. -/
def specStep (e : Env) (σ : Spec) : Op → Spec
  | .setStart q => { σ with A := fun p => σ.A p ∨ Touch e q p, given := some q, start := some q }
  | .allowConfig q => { σ with A := fun p => σ.A p ∨ Touch e q p, given := some q }
  | .allowCollision i j b => { σ with A := fun p => if p = s(i.toNat, j.toNat) then b = true else σ.A p }
  | .editAllowed i j b => { σ with A := fun p => if p = s(i.toNat, j.toNat) then b = true else σ.A p }
  | .setGoal s => { σ with
      tracked := σ.tracked.map fun C p => C p ∨ ∃ q, σ.start = some q ∧ Clash e σ.A (put e.sub s q) p }
  | .setWsgoal => { σ with ws := true }
  | .track b => { σ with tracked := if b then some (fun _ => False) else none }
  | .plan checks _ => { σ with
      tracked := σ.tracked.map fun _ p => ∃ s ∈ checks, ∃ q, σ.start = some q ∧
        Clash e σ.A (put e.sub s q) p }

/-- A state is fine if nothing clashes in the start configuration with the state put in. -/
def Fine (e : Env) (σ : Spec) (s : Cfg) : Prop :=
  ∃ q, σ.start = some q ∧ ∀ p, ¬ Clash e σ.A (put e.sub s q) p

/-- What calls have to answer. -/
def Right (e : Env) (σ : Spec) : Op → Res → Prop
  | .setGoal s, .goal ok => (ok = true ↔ Fine e σ s)
  | .plan checks _, .plan l _ => List.Forall₂ (fun s ok => ok = true ↔ Fine e σ s) checks l
  | .setGoal _, _ => False
  | .plan _ _, _ => False
  | _, .unit => True
  | _, _ => False

/-- The answers of a history. -/
def AllRight (e : Env) : Spec → List Op → List Res → Prop
  | _, [], [] => True
  | σ, o :: os, r :: rs => Right e σ o r ∧ AllRight e (specStep e σ o) os rs
  | _, _, _ => False

/-- The specification after a history. -/
def specRun (e : Env) : Spec → List Op → Spec
  | σ, [] => σ
  | σ, o :: os => specRun e (specStep e σ o) os

/-- Correct calls: frames in range, and a start before anything is checked. -/
def Usable (e : Env) (σ : Spec) : Op → Prop
  | .allowCollision i j _ => 0 ≤ i ∧ i < e.scene.length ∧ 0 ≤ j ∧ j < e.scene.length
  | .editAllowed i j _ => 0 ≤ i ∧ i < e.scene.length ∧ 0 ≤ j ∧ j < e.scene.length
  | .setGoal _ => ∃ q, σ.start = some q
  | .plan _ _ => ∃ q, σ.start = some q
  | _ => True

/-- What the code does not get right: a pair that the scene graph allows and the planner does not, a
configuration allowed after the start, and a joint goal after a workspace goal. -/
def Avoids (S : Sym2 Nat → Prop) (σ : Spec) : Op → Prop
  | .allowCollision i j b => b = false → ¬ S s(i.toNat, j.toNat)
  | .editAllowed i j b => b = false → ¬ S s(i.toNat, j.toNat)
  | .setGoal _ => σ.given = σ.start ∧ σ.ws = false
  | .plan _ _ => σ.given = σ.start
  | _ => True

/-- Every call satisfies a condition in its state of the specification. -/
def Along (e : Env) (P : Spec → Op → Prop) : Spec → List Op → Prop
  | _, [] => True
  | σ, o :: os => P σ o ∧ Along e P (specStep e σ o) os

/-- A state and a configuration agree. -/
def Same (e : Env) (s t : Cfg) : Prop := ∀ j, j < e.sub.configCount → s j = t j

/-- The goal that counts is the last that has been accepted. -/
def goalStep (g : Option Cfg) : Op → Res → Option Cfg
  | .setGoal s, .goal true => some s
  | .setWsgoal, _ => none
  | _, _ => g

def lastGoal : Option Cfg → List Op → List Res → Option Cfg
  | g, o :: os, r :: rs => lastGoal (goalStep g o r) os rs
  | g, _, _ => g

/-- Contract of the planners of OMPL: a path found leads from a start state to the goal state through
states that the checker has accepted. -/
structure Contract (e : Env) (m : Ctx) (path : List Cfg) : Prop where
  start : ∃ s ∈ m.starts, ∃ h, path.head? = some h ∧ Same e h s
  goal : ∀ g, m.goal = .joint g → ∃ l, path.getLast? = some l ∧ Same e l g
  valid : ∀ s ∈ path, ∃ m', isValid e (allow m) s = some (true, m')

/-- What a plan from `q` has to be: it starts at `q`, ends at the goal, leaves the other variables
alone, and nothing clashes. -/
structure GoodPlan (e : Env) (A : Sym2 Nat → Prop) (q : Cfg) (goal : Option Cfg) (way : List Cfg) :
    Prop where
  first : way.head? = some q
  last : ∀ g, goal = some g → way.getLast? = some (put e.sub g q)
  others : ∀ w ∈ way, ∀ c : Nat, (∀ j, j < e.sub.configCount → e.sub.configs j ≠ c) → w c = q c
  free : ∀ w ∈ way, ∀ p, ¬ Clash e A w p

/-- A new context: the scene graph's pairs are allowed. -/
def spec0 (S : Sym2 Nat → Prop) : Spec := ⟨S, none, none, false, none⟩

/-- The libraries meet their contracts, the geometry is as in C88, and the variables of the
sub-scenegraph are variables without repetition. -/
structure EnvOk (e : Env) : Prop where
  narrow : NarrowPhase e.collide
  broad : ∀ tf, BroadPhase (objects e.scene).length
    (hitAt e.collide ((objects e.scene).map fun o => (o.fcl, updateTf tf o))) (e.visits tf)
  shapes : ∀ gs ∈ e.scene, ∀ g ∈ gs, g.collision = true → Supported g
  pos : ∀ j, j < e.sub.configCount → 0 ≤ e.sub.configs j
  inj : ∀ i j, i < e.sub.configCount → j < e.sub.configCount → e.sub.configs i = e.sub.configs j → i = j
  pick : ∀ l, (l = [] → e.pick l = none) ∧ (l ≠ [] → ∃ p ∈ l, e.pick l = some p)

/-! ## Lemmas -/

theorem configSet_put {e : Env} (he : EnvOk e) (s q : Cfg) :
    configSet e.sub s 0 0 e.sub.configCount 0 q = some (put e.sub s q) := by
  rw [configSet_eq e.sub s 0 0 _ 0 q (fun j _ h => he.pos j (by omega))]
  congr 1
  funext c
  unfold put
  cases hf : (List.range e.sub.configCount).find? (fun j => decide (e.sub.configs j = c)) with
  | none =>
    rw [List.find?_eq_none] at hf
    dsimp only
    apply writes_frame
    intro j _ h2 e'
    have := hf j (List.mem_range.2 (by omega))
    have hp := he.pos j (by omega)
    simp only [decide_eq_true_eq] at this
    omega
  | some j =>
    have h1 : e.sub.configs j = c := by simpa using List.find?_some hf
    have h2 := List.mem_range.1 (List.mem_of_find?_eq_some hf)
    dsimp only
    have hw := writes_get (fun j => 0 + (e.sub.configs j).toNat) (fun j => s (0 + j)) e.sub.configCount
      0 q j (by omega) (by omega) (fun j' h3 h4 h5 => by
        have := he.inj j j' h2 (by omega) (by
          have a := he.pos j h2
          have b := he.pos j' (by omega)
          omega)
        omega)
    rw [show 0 + (e.sub.configs j).toNat = c by omega] at hw
    rw [hw, Nat.zero_add]

theorem checkAt {e : Env} (he : EnvOk e) {al : ClSet} {A : Sym2 Nat → Prop}
    (ha : Holds al e.scene.length A) (q : Cfg) :
    (∃ d, clCheck e.collide e.scene al (e.fk q) (e.visits (e.fk q)) none = some d ∧ d.set = none ∧
      (d.result = true ↔ ∃ p, Clash e A q p)) ∧
    ∀ s S, Holds s e.scene.length S → ∃ d s',
      clCheck e.collide e.scene al (e.fk q) (e.visits (e.fk q)) (some s) = some d ∧ d.set = some s' ∧
        (d.result = true ↔ ∃ p, Clash e A q p) ∧
        Holds s' e.scene.length (fun p => S p ∨ Clash e A q p) := by
  exact clCheck_spec he.narrow ha he.shapes (he.broad _)

/-- Tracked collisions of the code and of the specification. -/
def Tracks (n : Nat) (c : Option ClSet) (C : Option (Sym2 Nat → Prop)) : Prop :=
  match c, C with
  | none, none => True
  | some c, some C => Holds c n C
  | _, _ => False

theorem isValid_spec {e : Env} (he : EnvOk e) {m : Ctx} {A : Sym2 Nat → Prop}
    (ha : Holds m.cl e.scene.length A) {q : Cfg} (hq : m.qAll = some q) (s : Cfg)
    {C : Option (Sym2 Nat → Prop)} (hC : Tracks e.scene.length m.collisions C) :
    ∃ ok c, isValid e m s = some (ok, { m with collisions := c }) ∧
      (ok = true ↔ ∀ p, ¬ Clash e A (put e.sub s q) p) ∧
      Tracks e.scene.length c (C.map fun C p => C p ∨ Clash e A (put e.sub s q) p) := by
  obtain ⟨h1, h2⟩ := checkAt he ha (put e.sub s q)
  unfold isValid
  rw [hq, Option.bind_some, configSet_put he, Option.bind_some]
  obtain ⟨msg, msp, mcl, mq, mc, mst, mcs, mg, ml, mn, mso⟩ := m
  dsimp only at *
  cases mc with
  | none =>
    cases C with
    | some C => exact absurd hC id
    | none =>
      obtain ⟨d, e1, e2, e3⟩ := h1
      refine ⟨!d.result, none, by rw [e1, Option.map_some, e2], ?_, trivial⟩
      rw [Bool.not_eq_true', Bool.eq_false_iff, Ne, e3]
      push Not
      rfl
  | some c =>
    cases C with
    | none => exact absurd hC id
    | some C =>
      obtain ⟨d, s', e1, e2, e3, e4⟩ := h2 c C hC
      refine ⟨!d.result, some s', by rw [e1, Option.map_some, e2], ?_, e4⟩
      rw [Bool.not_eq_true', Bool.eq_false_iff, Ne, e3]
      push Not
      rfl

theorem checkAll_spec {e : Env} (he : EnvOk e) {A : Sym2 Nat → Prop} {q : Cfg} : ∀ (l : List Cfg)
    (m : Ctx) (C : Option (Sym2 Nat → Prop)), Holds m.cl e.scene.length A → m.qAll = some q →
    Tracks e.scene.length m.collisions C →
    ∃ oks c, checkAll e l m = some (oks, { m with collisions := c }) ∧
      List.Forall₂ (fun s ok => ok = true ↔ ∀ p, ¬ Clash e A (put e.sub s q) p) l oks ∧
      Tracks e.scene.length c (C.map fun C p => C p ∨ ∃ s ∈ l, Clash e A (put e.sub s q) p) := by
  intro l
  induction l with
  | nil =>
    intro m C h1 h2 h3
    refine ⟨[], m.collisions, rfl, .nil, ?_⟩
    cases C with
    | none => exact h3
    | some C => simpa using h3
  | cons s l ih =>
    intro m C h1 h2 h3
    obtain ⟨ok, c, e1, e2, e3⟩ := isValid_spec he h1 h2 s h3
    obtain ⟨oks, c', f1, f2, f3⟩ := ih { m with collisions := c } _ h1 h2 e3
    refine ⟨ok :: oks, c', ?_, .cons e2 f2, ?_⟩
    · simp only [checkAll, e1, Option.bind_some, f1, Option.map_some]
    · cases C with
      | none => exact f3
      | some C => simpa [or_assoc] using f3

/-! ## Simulation -/

structure Rel (e : Env) (S : Sym2 Nat → Prop) (m : Ctx) (σ : Spec) : Prop where
  sg : Holds m.sg e.scene.length S
  space : Holds m.space e.scene.length σ.A
  cl : ∃ B, Holds m.cl e.scene.length B
  sub : ∀ p, S p → σ.A p
  q : m.qAll = σ.given
  start : m.configStart = σ.start
  col : Tracks e.scene.length m.collisions σ.tracked
  ws : σ.ws = false → m.lazy = none
  alive : lazyAlive m = true

theorem rel_create {e : Env} {S : Sym2 Nat → Prop} {sg : ClSet} (h : Holds sg e.scene.length S) :
    Rel e S (create sg) (spec0 S) :=
  ⟨h, h, ⟨S, holds_fill h h⟩, fun _ h => h, rfl, rfl, trivial, fun _ => rfl, rfl⟩

theorem allowConfig_spec {e : Env} (he : EnvOk e) {S : Sym2 Nat → Prop} {m : Ctx} {σ : Spec}
    (h : Rel e S m σ) (q : Cfg) :
    ∃ sp, allowConfig e m q = some (allow { m with space := sp, qAll := some q }) ∧
      Rel e S (allow { m with space := sp, qAll := some q }) (specStep e σ (.allowConfig q)) := by
  obtain ⟨-, h2⟩ := checkAt he h.sg q
  obtain ⟨d, s', e1, e2, -, e4⟩ := h2 m.space σ.A h.space
  obtain ⟨sp, e5, e6⟩ := holds_merge_empty e4
  have e7 : Holds sp e.scene.length (fun p => σ.A p ∨ Touch e q p) := by
    refine holds_congr e6 fun i j _ _ => ?_
    unfold Clash
    have := h.sub s(i, j)
    tauto
  refine ⟨sp, ?_, ?_⟩
  · unfold allowConfig getCollision
    rw [e1, Option.bind_some, e2, Option.bind_some, e5]
    rfl
  · obtain ⟨B, hB⟩ := h.cl
    exact ⟨h.sg, e7, ⟨_, holds_fill hB e7⟩, fun p hp => Or.inl (h.sub p hp), rfl, h.start, h.col, h.ws,
      h.alive⟩

theorem fill_some {e : Env} (he : EnvOk e) (q : Cfg) : ∀ l : List Cfg,
    fill e q l = some (l.map fun s => put e.sub s q) := by
  intro l
  induction l with
  | nil => rfl
  | cons s l ih => simp only [fill, configSet_put he, Option.bind_some, ih, Option.map_some, List.map_cons]

theorem setStart_spec {e : Env} (he : EnvOk e) {S : Sym2 Nat → Prop} {m : Ctx} {σ : Spec}
    (h : Rel e S m σ) (q : Cfg) :
    ∃ sp s, setStart e m q = some { allow { m with space := sp, qAll := some q } with
        starts := m.starts ++ [s], configStart := some q } ∧
      (∀ j, j < e.sub.configCount → s j = q (e.sub.configs j).toNat) ∧
      Rel e S { allow { m with space := sp, qAll := some q } with
        starts := m.starts ++ [s], configStart := some q } (specStep e σ (.setStart q)) := by
  obtain ⟨sp, e1, r⟩ := allowConfig_spec he h q
  refine ⟨sp, writes (fun j => j) (fun j => q (e.sub.configs j).toNat) e.sub.configCount 0 (fun _ => 0),
    ?_, ?_, ⟨r.sg, r.space, r.cl, r.sub, rfl, rfl, r.col, r.ws, r.alive⟩⟩
  · unfold setStart
    rw [e1, Option.bind_some, configGet_eq e.sub q _ 0 _ (fun j _ h => he.pos j (by omega))]
    rfl
  · intro j hj
    exact writes_get (fun j => j) (fun j => q (e.sub.configs j).toNat) _ 0 _ j (by omega) (by omega)
      (fun j' h1 _ => by omega)

theorem step_spec {e : Env} (he : EnvOk e) {S : Sym2 Nat → Prop} {m : Ctx} {σ : Spec}
    (h : Rel e S m σ) (o : Op) (hu : Usable e σ o) (ha : Avoids S σ o) :
    ∃ r m', step e m o = some (r, m') ∧ Right e σ o r ∧ Rel e S m' (specStep e σ o) := by
  have edit : ∀ (i j : Int) (b : Bool), 0 ≤ i ∧ i < e.scene.length ∧ 0 ≤ j ∧ j < e.scene.length →
      (b = false → ¬ S s(i.toNat, j.toNat)) →
      ∃ sp, clSet m.space i j b = some sp ∧ Holds sp e.scene.length
        (fun p => if p = s(i.toNat, j.toNat) then b = true else σ.A p) ∧
        ∀ p, S p → if p = s(i.toNat, j.toNat) then b = true else σ.A p := by
    intro i j b hr hb
    obtain ⟨sp, e1, e2⟩ := holds_update (i := i.toNat) (j := j.toNat) h.space b (by omega) (by omega)
    rw [Int.toNat_of_nonneg hr.1, Int.toNat_of_nonneg hr.2.2.1] at e1
    refine ⟨sp, e1, e2, fun p hp => ?_⟩
    split
    · rename_i hpe
      subst hpe
      cases b
      · exact absurd hp (hb rfl)
      · rfl
    · exact h.sub p hp
  obtain ⟨B, hB⟩ := h.cl
  cases o with
  | setStart q =>
    obtain ⟨sp, s, e1, -, r⟩ := setStart_spec he h q
    exact ⟨.unit, _, by simp only [step, e1, Option.map_some], trivial, r⟩
  | allowConfig q =>
    obtain ⟨sp, e1, r⟩ := allowConfig_spec he h q
    exact ⟨.unit, _, by simp only [step, e1, Option.map_some], trivial, r⟩
  | allowCollision i j b =>
    obtain ⟨sp, e1, e2, e3⟩ := edit i j b hu ha
    exact ⟨.unit, allow { m with space := sp }, by simp only [step, allowCollision, e1, Option.map_some], trivial,
      ⟨h.sg, e2, ⟨_, holds_fill hB e2⟩, e3, h.q, h.start, h.col, h.ws, h.alive⟩⟩
  | editAllowed i j b =>
    obtain ⟨sp, e1, e2, e3⟩ := edit i j b hu ha
    exact ⟨.unit, { m with space := sp }, by simp only [step, editAllowed, e1, Option.map_some], trivial,
      ⟨h.sg, e2, ⟨B, hB⟩, e3, h.q, h.start, h.col, h.ws, h.alive⟩⟩
  | setGoal s =>
    obtain ⟨q, hq⟩ := hu
    obtain ⟨hg, hw⟩ := ha
    obtain ⟨ok, c, e1, e2, e3⟩ := isValid_spec he (m := allow m) (A := σ.A) (holds_fill hB h.space)
      (q := q) (by rw [← hq, ← hg]; exact h.q) s h.col
    have hr : Right e σ (.setGoal s) (.goal ok) := by
      refine e2.trans ⟨fun h => ⟨q, hq, h⟩, ?_⟩
      rintro ⟨q', hq', h⟩
      rw [hq] at hq'
      cases hq'
      exact h
    have ht : Tracks e.scene.length c (specStep e σ (.setGoal s)).tracked := by
      unfold specStep
      dsimp only
      cases hC : σ.tracked with
      | none => rw [hC] at e3; exact e3
      | some C => rw [hC] at e3; simpa [hq] using e3
    have hlazy := h.ws hw
    refine ⟨.goal ok, if ok then { allow m with collisions := c, goal := .joint s } else
      { allow m with collisions := c }, ?_, hr, ?_⟩
    · simp only [step, setGoal, e1, Option.map_some]
      cases ok <;> rfl
    · cases ok
      · exact ⟨h.sg, h.space, ⟨_, holds_fill hB h.space⟩, h.sub, h.q, h.start, ht, h.ws, h.alive⟩
      · refine ⟨h.sg, h.space, ⟨_, holds_fill hB h.space⟩, h.sub, h.q, h.start, ht, h.ws, ?_⟩
        simp only [if_true, lazyAlive, allow, hlazy]
  | setWsgoal =>
    exact ⟨.unit, _, rfl, trivial, ⟨h.sg, h.space, h.cl, h.sub, h.q, h.start, h.col,
      fun hw => absurd hw (by simp [specStep]), by simp [setWsgoal, lazyAlive]⟩⟩
  | track b =>
    refine ⟨.unit, _, rfl, trivial, ⟨h.sg, h.space, h.cl, h.sub, h.q, h.start, ?_, h.ws, h.alive⟩⟩
    cases b
    · trivial
    · exact holds_create _
  | plan checks found =>
    obtain ⟨q, hq⟩ := hu
    -- tracked collisions are cleared
    obtain ⟨c0, hc0, hT0⟩ : ∃ c0, clearTracked (allow m) = some { allow m with collisions := c0 } ∧
        Tracks e.scene.length c0 (σ.tracked.map fun _ _ => False) := by
      have hcol := h.col
      unfold clearTracked
      obtain ⟨msg, msp, mcl, mq, mc, mst, mcs, mg, ml, mn, mso⟩ := m
      dsimp only [allow] at *
      cases mc with
      | none =>
        cases hC : σ.tracked with
        | none => exact ⟨none, rfl, trivial⟩
        | some C => rw [hC] at hcol; exact absurd hcol id
      | some c =>
        cases hC : σ.tracked with
        | none => rw [hC] at hcol; exact absurd hcol id
        | some C =>
          rw [hC] at hcol
          obtain ⟨c', f1, f2⟩ := holds_clear hcol
          exact ⟨some c', by dsimp only; rw [f1]; rfl, f2⟩
    obtain ⟨oks, c, e1, e2, e3⟩ := checkAll_spec he (A := σ.A) (q := q) checks
      { allow m with collisions := c0 } _ (holds_fill hB h.space)
      (by rw [← hq, ← (show σ.given = σ.start from ha)]; exact h.q) hT0
    have hr : ∀ p, Right e σ (.plan checks found) (.plan oks p) := by
      intro p
      refine e2.imp fun s ok h => h.trans ⟨fun h => ⟨q, hq, h⟩, ?_⟩
      rintro ⟨q', hq', h⟩
      rw [hq] at hq'
      cases hq'
      exact h
    have ht : Tracks e.scene.length c (specStep e σ (.plan checks found)).tracked := by
      unfold specStep
      dsimp only
      cases hC : σ.tracked with
      | none => rw [hC] at e3; exact e3
      | some C => rw [hC] at e3; simpa [hq] using e3
    have hrel : Rel e S { allow m with collisions := c, sols := m.sols ++ found.toList }
        (specStep e σ (.plan checks found)) :=
      ⟨h.sg, h.space, ⟨_, holds_fill hB h.space⟩, h.sub, h.q, h.start, ht, h.ws, h.alive⟩
    have hal : lazyAlive { allow m with collisions := c0 } = true := h.alive
    have hst : m.configStart = some q := h.start.trans hq
    cases hp : e.pick (m.sols ++ found.toList) with
    | none =>
      refine ⟨.plan oks none, _, ?_, hr _, hrel⟩
      simp only [step, plan, hc0, Option.bind_some, hal, if_true, e1]
      simp only [allow, hp, Option.map_some]
    | some path =>
      refine ⟨.plan oks (some (path.map fun s => put e.sub s q)), _, ?_, hr _, hrel⟩
      simp only [step, plan, hc0, Option.bind_some, hal, if_true, e1]
      simp only [allow, hp, hst, Option.bind_some, fill_some he, Option.map_some]

theorem run_spec {e : Env} (he : EnvOk e) {S : Sym2 Nat → Prop} : ∀ (os : List Op) (m : Ctx) (σ : Spec),
    Rel e S m σ → Along e (Usable e) σ os → Along e (Avoids S) σ os →
    ∃ rs m', run e os m = some (rs, m') ∧ AllRight e σ os rs ∧ Rel e S m' (specRun e σ os) := by
  intro os
  induction os with
  | nil => intro m σ h _ _; exact ⟨[], m, rfl, trivial, h⟩
  | cons o os ih =>
    intro m σ h hu ha
    obtain ⟨r, m1, e1, r1, h1⟩ := step_spec he h o hu.1 ha.1
    obtain ⟨rs, m2, e2, r2, h2⟩ := ih m1 _ h1 hu.2 ha.2
    exact ⟨r :: rs, m2, by simp only [run, e1, Option.bind_some, e2, Option.map_some], ⟨r1, r2⟩, h2⟩

/-- **C90** For histories of calls with frames in range and a start before anything is checked, that
do not allow a configuration after the start, do not disallow a pair that the scene graph allows, and do
not set a joint goal after a workspace goal: every call answers as the specification says, and at the
end the allowed pairs and the tracked collisions are those of the specification. -/
theorem C90_history_partial (e : Env) (he : EnvOk e) (sg : ClSet) (S : Sym2 Nat → Prop)
    (hS : Holds sg e.scene.length S) (os : List Op) (hu : Along e (Usable e) (spec0 S) os)
    (ha : Along e (Avoids S) (spec0 S) os) :
    ∃ rs m, run e os (create sg) = some (rs, m) ∧ AllRight e (spec0 S) os rs ∧
      Holds m.space e.scene.length (specRun e (spec0 S) os).A ∧
      ((specRun e (spec0 S) os).tracked = none → m.collisions = none) ∧
      ∀ C, (specRun e (spec0 S) os).tracked = some C → ∃ c, m.collisions = some c ∧
        Holds c e.scene.length C := by
  obtain ⟨rs, m, h1, h2, h3⟩ := run_spec he os (create sg) (spec0 S) (rel_create hS) hu ha
  refine ⟨rs, m, h1, h2, h3.space, fun ht => ?_, fun C ht => ?_⟩
  · have := h3.col
    rw [ht] at this
    cases hc : m.collisions with
    | none => rfl
    | some c => rw [hc] at this; exact absurd this id
  · have := h3.col
    rw [ht] at this
    cases hc : m.collisions with
    | none => rw [hc] at this; exact absurd this id
    | some c => rw [hc] at this; exact ⟨c, rfl, this⟩

/-! ## Paths -/

theorem put_self {e : Env} {h q : Cfg}
    (hh : ∀ j, j < e.sub.configCount → h j = q (e.sub.configs j).toNat) : put e.sub h q = q := by
  funext c
  unfold put
  cases hf : (List.range e.sub.configCount).find? (fun j => decide (e.sub.configs j = c)) with
  | none => rfl
  | some j =>
    have h1 : e.sub.configs j = c := by simpa using List.find?_some hf
    have h2 := List.mem_range.1 (List.mem_of_find?_eq_some hf)
    dsimp only
    rw [hh j h2, h1, Int.toNat_natCast]

theorem put_same {e : Env} {s t : Cfg} (h : Same e s t) (q : Cfg) : put e.sub s q = put e.sub t q := by
  funext c
  unfold put
  cases hf : (List.range e.sub.configCount).find? (fun j => decide (e.sub.configs j = c)) with
  | none => rfl
  | some j => exact h j (List.mem_range.1 (List.mem_of_find?_eq_some hf))

theorem put_other {e : Env} {s q : Cfg} {c : Nat} (h : ∀ j, j < e.sub.configCount → e.sub.configs j ≠ c) :
    put e.sub s q c = q c := by
  unfold put
  rw [List.find?_eq_none.2 fun j hj => by simpa using h j (List.mem_range.1 hj)]

/-- The state of a configuration. -/
def stateOf (e : Env) (q : Cfg) : Cfg :=
  writes (fun j => j) (fun j => q (e.sub.configs j).toNat) e.sub.configCount 0 (fun _ => 0)

theorem stateOf_get (e : Env) (q : Cfg) : ∀ j, j < e.sub.configCount →
    stateOf e q j = q (e.sub.configs j).toNat := by
  intro j hj
  exact writes_get (fun j => j) (fun j => q (e.sub.configs j).toNat) _ 0 _ j (by omega) (by omega)
    (fun j' h1 _ => by omega)

def startsOf (e : Env) : Op → List Cfg
  | .setStart q => [stateOf e q]
  | _ => []

def foundOf : Op → List (List Cfg)
  | .plan _ (some p) => [p]
  | _ => []

/-- The goal of the code and the last goal accepted. -/
def GoalIs (g : Goal) (s : Option Cfg) : Prop := ∀ t, s = some t → g = .joint t

theorem isValid_frame {e : Env} {m : Ctx} {s : Cfg} {r : Bool × Ctx} (h : isValid e m s = some r) :
    ∃ c, r.2 = { m with collisions := c } := by
  unfold isValid at h
  cases hq : m.qAll with
  | none => rw [hq] at h; exact absurd h (by simp)
  | some q =>
    rw [hq, Option.bind_some] at h
    cases hc : configSet e.sub s 0 0 e.sub.configCount 0 q with
    | none => rw [hc] at h; exact absurd h (by simp)
    | some q' =>
      rw [hc, Option.bind_some, Option.map_eq_some_iff] at h
      obtain ⟨d, -, rfl⟩ := h
      exact ⟨_, rfl⟩

theorem checkAll_frame {e : Env} : ∀ (l : List Cfg) {m : Ctx} {r : List Bool × Ctx},
    checkAll e l m = some r → ∃ c, r.2 = { m with collisions := c } := by
  intro l
  induction l with
  | nil => intro m r h; cases h; exact ⟨m.collisions, rfl⟩
  | cons s l ih =>
    intro m r h
    rw [checkAll, Option.bind_eq_some_iff] at h
    obtain ⟨r1, h1, h2⟩ := h
    rw [Option.map_eq_some_iff] at h2
    obtain ⟨r2, h3, rfl⟩ := h2
    obtain ⟨c, hc⟩ := isValid_frame h1
    obtain ⟨c', hc'⟩ := ih h3
    exact ⟨c', by rw [hc', hc]⟩

/-- What a call does to start states, solutions and goal. -/
theorem step_frame {e : Env} (he : EnvOk e) {m m' : Ctx} {o : Op} {r : Res} {g : Option Cfg}
    (h : step e m o = some (r, m')) (hg : GoalIs m.goal g) :
    m'.starts = m.starts ++ startsOf e o ∧ m'.sols = m.sols ++ foundOf o ∧
      GoalIs m'.goal (goalStep g o r) := by
  have ac : ∀ {q m1}, allowConfig e m q = some m1 → m1.starts = m.starts ∧ m1.sols = m.sols ∧
      m1.goal = m.goal := by
    intro q m1 h
    unfold allowConfig at h
    rw [Option.map_eq_some_iff] at h
    obtain ⟨s, -, rfl⟩ := h
    exact ⟨rfl, rfl, rfl⟩
  cases o with
  | setStart q =>
    simp only [step, setStart] at h
    rw [Option.map_eq_some_iff] at h
    obtain ⟨m1, h1, h2⟩ := h
    rw [Option.bind_eq_some_iff] at h1
    obtain ⟨m2, h3, h4⟩ := h1
    rw [configGet_eq e.sub q _ 0 _ (fun j _ h => he.pos j (by omega)), Option.map_some] at h4
    cases h4
    cases h2
    obtain ⟨a, b, c⟩ := ac h3
    exact ⟨by simp only [a]; rfl, by simp [b, foundOf], by simp only [c]; exact hg⟩
  | allowConfig q =>
    simp only [step] at h
    rw [Option.map_eq_some_iff] at h
    obtain ⟨m1, h1, h2⟩ := h
    cases h2
    obtain ⟨a, b, c⟩ := ac h1
    exact ⟨by simp [a, startsOf], by simp [b, foundOf], by rw [c]; exact hg⟩
  | allowCollision i j b =>
    simp only [step, allowCollision] at h
    rw [Option.map_eq_some_iff] at h
    obtain ⟨m1, h1, h2⟩ := h
    rw [Option.map_eq_some_iff] at h1
    obtain ⟨s, -, rfl⟩ := h1
    cases h2
    exact ⟨by simp [allow, startsOf], by simp [allow, foundOf], hg⟩
  | editAllowed i j b =>
    simp only [step, editAllowed] at h
    rw [Option.map_eq_some_iff] at h
    obtain ⟨m1, h1, h2⟩ := h
    rw [Option.map_eq_some_iff] at h1
    obtain ⟨s, -, rfl⟩ := h1
    cases h2
    exact ⟨by simp [startsOf], by simp [foundOf], hg⟩
  | setGoal s =>
    simp only [step, setGoal] at h
    rw [Option.map_eq_some_iff] at h
    obtain ⟨m1, h1, h2⟩ := h
    rw [Option.map_eq_some_iff] at h1
    obtain ⟨⟨ok, m2⟩, h3, rfl⟩ := h1
    obtain ⟨c, hc⟩ := isValid_frame h3
    dsimp only at hc
    subst hc
    cases ok
    · cases h2
      exact ⟨by simp [allow, startsOf], by simp [allow, foundOf], hg⟩
    · cases h2
      exact ⟨by simp [allow, startsOf], by simp [allow, foundOf], fun t ht => by cases ht; rfl⟩
  | setWsgoal =>
    cases h
    exact ⟨by simp [setWsgoal, startsOf], by simp [setWsgoal, foundOf], fun t ht => by cases ht⟩
  | track b =>
    cases h
    exact ⟨by simp [setTrack, startsOf], by simp [setTrack, foundOf], hg⟩
  | plan checks found =>
    simp only [step, plan] at h
    rw [Option.map_eq_some_iff] at h
    obtain ⟨r1, h1, h2⟩ := h
    rw [Option.bind_eq_some_iff] at h1
    obtain ⟨m1, h3, h4⟩ := h1
    have hm1 : ∃ c, m1 = { allow m with collisions := c } := by
      unfold clearTracked at h3
      split at h3
      · cases h3; exact ⟨m.collisions, rfl⟩
      · rw [Option.map_eq_some_iff] at h3
        obtain ⟨c, -, rfl⟩ := h3
        exact ⟨some c, rfl⟩
    obtain ⟨c, rfl⟩ := hm1
    split at h4
    · rw [Option.bind_eq_some_iff] at h4
      obtain ⟨⟨oks, m2⟩, h5, h6⟩ := h4
      obtain ⟨c', hc'⟩ := checkAll_frame checks h5
      dsimp only at hc' h6
      subst hc'
      have key : r1.2 = { allow m with collisions := c', sols := m.sols ++ found.toList } := by
        split at h6
        · cases h6; rfl
        · rw [Option.bind_eq_some_iff] at h6
          obtain ⟨q, -, h7⟩ := h6
          rw [Option.map_eq_some_iff] at h7
          obtain ⟨l, -, rfl⟩ := h7
          rfl
      cases h2
      rw [key]
      refine ⟨by simp [allow, startsOf], ?_, hg⟩
      cases found <;> simp [foundOf]
    · cases h4

theorem run_frame {e : Env} (he : EnvOk e) : ∀ (os : List Op) {m m' : Ctx} {rs : List Res}
    {g : Option Cfg}, run e os m = some (rs, m') → GoalIs m.goal g →
    m'.starts = m.starts ++ os.flatMap (startsOf e) ∧ m'.sols = m.sols ++ os.flatMap foundOf ∧
      GoalIs m'.goal (lastGoal g os rs) := by
  intro os
  induction os with
  | nil => intro m m' rs g h hg; cases h; exact ⟨by simp, by simp, hg⟩
  | cons o os ih =>
    intro m m' rs g h hg
    rw [run, Option.bind_eq_some_iff] at h
    obtain ⟨⟨r, m1⟩, h1, h2⟩ := h
    rw [Option.map_eq_some_iff] at h2
    obtain ⟨⟨rs', m2⟩, h3, h4⟩ := h2
    cases h4
    obtain ⟨a1, b1, c1⟩ := step_frame he h1 hg
    obtain ⟨a2, b2, c2⟩ := ih h3 c1
    exact ⟨by rw [a2, a1]; simp, by rw [b2, b1]; simp, c2⟩

theorem specRun_start {e : Env} : ∀ (os : List Op) (σ : Spec), (∀ q, .setStart q ∉ os) →
    (specRun e σ os).start = σ.start := by
  intro os
  induction os with
  | nil => intro σ _; rfl
  | cons o os ih =>
    intro σ h
    rw [specRun, ih _ fun q hq => h q (List.mem_cons_of_mem _ hq)]
    cases o <;> first | rfl | (exact absurd (List.mem_cons_self ..) (h _))

theorem specRun_append {e : Env} : ∀ (os os' : List Op) (σ : Spec),
    specRun e σ (os ++ os') = specRun e (specRun e σ os) os' := by
  intro os
  induction os with
  | nil => intro os' σ; rfl
  | cons o os ih => intro os' σ; exact ih os' _

theorem along_append {e : Env} {P : Spec → Op → Prop} : ∀ (os os' : List Op) (σ : Spec),
    Along e P σ (os ++ os') ↔ Along e P σ os ∧ Along e P (specRun e σ os) os' := by
  intro os
  induction os with
  | nil => intro os' σ; exact ⟨fun h => ⟨trivial, h⟩, fun h => h.2⟩
  | cons o os ih =>
    intro os' σ
    simp only [List.cons_append, Along, specRun, ih, and_assoc]

theorem plan_way {e : Env} (he : EnvOk e) {m m' : Ctx} {q : Cfg} (hq : m.configStart = some q)
    {checks : List Cfg} {found : Option (List Cfg)} {oks : List Bool} {way : Option (List Cfg)}
    (h : step e m (.plan checks found) = some (.plan oks way, m')) :
    way = (e.pick (m.sols ++ found.toList)).map fun path => path.map fun s => put e.sub s q := by
  simp only [step, plan] at h
  rw [Option.map_eq_some_iff] at h
  obtain ⟨r1, h1, h2⟩ := h
  rw [Option.bind_eq_some_iff] at h1
  obtain ⟨m1, h3, h4⟩ := h1
  have hm1 : ∃ c, m1 = { allow m with collisions := c } := by
    unfold clearTracked at h3
    split at h3
    · cases h3; exact ⟨m.collisions, rfl⟩
    · rw [Option.map_eq_some_iff] at h3
      obtain ⟨c, -, rfl⟩ := h3
      exact ⟨some c, rfl⟩
  obtain ⟨c, rfl⟩ := hm1
  split at h4
  · rw [Option.bind_eq_some_iff] at h4
    obtain ⟨⟨oks', m2⟩, h5, h6⟩ := h4
    obtain ⟨c', hc'⟩ := checkAll_frame checks h5
    dsimp only at hc' h6
    subst hc'
    simp only [allow, hq, Option.bind_some, fill_some he, Option.map_some] at h6
    cases h2
    cases hp : e.pick (m.sols ++ found.toList) with
    | none => rw [hp] at h6; cases h6; rfl
    | some path => rw [hp] at h6; cases h6; rfl
  · cases h4

/-- **C91** For the histories of C90 with one start and no path found yet: if the planner finds a path
as its contract says, `aa_rx_mp_plan` gives a good plan from the start to the last goal accepted,
and otherwise none. -/
theorem C91_path_partial (e : Env) (he : EnvOk e) (sg : ClSet) (S : Sym2 Nat → Prop)
    (hS : Holds sg e.scene.length S) (pre post : List Op) (q : Cfg) (checks : List Cfg)
    (found : Option (List Cfg))
    (h1 : ∀ q', .setStart q' ∉ pre ++ post) (h2 : ∀ c p, .plan c (some p) ∉ pre ++ post)
    (hu : Along e (Usable e) (spec0 S) (pre ++ .setStart q :: post ++ [.plan checks found]))
    (ha : Along e (Avoids S) (spec0 S) (pre ++ .setStart q :: post ++ [.plan checks found])) :
    ∃ rs m, run e (pre ++ .setStart q :: post) (create sg) = some (rs, m) ∧
      ((∀ path, found = some path → Contract e m path) → ∃ oks way m',
        step e m (.plan checks found) = some (.plan oks way, m') ∧
        (way = none ↔ found = none) ∧
        ∀ w, way = some w → GoodPlan e (specRun e (spec0 S) (pre ++ .setStart q :: post)).A q
          (lastGoal none (pre ++ .setStart q :: post) rs) w) := by
  obtain ⟨hu1, hu2⟩ := (along_append _ _ _).1 hu
  obtain ⟨ha1, ha2⟩ := (along_append _ _ _).1 ha
  obtain ⟨rs, m, e1, -, e3⟩ := run_spec he _ (create sg) (spec0 S) (rel_create hS) hu1 ha1
  refine ⟨rs, m, e1, fun hC => ?_⟩
  obtain ⟨a, b, c⟩ := run_frame he _ (g := none) e1 (fun t ht => by cases ht)
  obtain ⟨σ, hσ⟩ : ∃ σ, σ = specRun e (spec0 S) (pre ++ .setStart q :: post) := ⟨_, rfl⟩
  rw [← hσ] at e3 hu2 ha2 ⊢
  have hstart : σ.start = some q := by
    rw [hσ, specRun_append, specRun, specRun_start _ _ fun q' hq' => h1 q' (List.mem_append_right _ hq')]
    rfl
  have hst : ∀ l : List Op, (∀ q', .setStart q' ∉ l) → l.flatMap (startsOf e) = [] := by
    intro l hl
    rw [List.flatMap_eq_nil_iff]
    intro o ho
    cases o <;> first | rfl | exact absurd ho (hl _)
  have hsl : ∀ l : List Op, (∀ c p, .plan c (some p) ∉ l) → l.flatMap foundOf = [] := by
    intro l hl
    rw [List.flatMap_eq_nil_iff]
    intro o ho
    cases o with
    | plan c f =>
      cases f with
      | none => rfl
      | some p => exact absurd ho (hl _ _)
    | _ => rfl
  have hs : m.starts = [stateOf e q] := by
    rw [a, List.flatMap_append, List.flatMap_cons, hst pre fun q' h => h1 q' (List.mem_append_left _ h),
      hst post fun q' h => h1 q' (List.mem_append_right _ h)]
    rfl
  have hso : m.sols = [] := by
    rw [b, List.flatMap_append, List.flatMap_cons,
      hsl pre fun c' q' h => h2 c' q' (List.mem_append_left _ h),
      hsl post fun c' q' h => h2 c' q' (List.mem_append_right _ h)]
    rfl
  obtain ⟨B, hB⟩ := e3.cl
  have hq : m.qAll = some q := by
    rw [e3.q, ← hstart]; exact ha2.1
  obtain ⟨r, m', f1, f2, f3⟩ := step_spec he e3 (.plan checks found) hu2.1 ha2.1
  -- the answer
  cases r with
  | unit => exact absurd f2 id
  | goal ok => exact absurd f2 id
  | plan oks way =>
    refine ⟨oks, way, m', f1, ?_⟩
    have hway := plan_way he (e3.start.trans hstart) f1
    rw [hso, List.nil_append] at hway
    cases found with
    | none =>
      have : way = none := by rw [hway]; simp [(he.pick []).1 rfl]
      subst this
      exact ⟨by simp, fun w hw => by cases hw⟩
    | some path =>
      obtain ⟨p, hp, hpe⟩ := (he.pick [path]).2 (by simp)
      rw [List.mem_singleton] at hp
      subst hp
      have hw : way = some (p.map fun s => put e.sub s q) := by
        rw [hway]; simp only [Option.toList_some, hpe, Option.map_some]
      subst hw
      obtain ⟨⟨s, hs1, h, hh, hsame⟩, k2, k3⟩ := hC p rfl
      rw [hs, List.mem_singleton] at hs1
      subst hs1
      refine ⟨by simp, fun w hw => ?_⟩
      cases hw
      refine ⟨?_, ?_, ?_, ?_⟩
      · rw [List.head?_map, hh, Option.map_some,
          put_self (fun j hj => (hsame j hj).trans (stateOf_get e q j hj))]
      · intro g hg
        obtain ⟨l, hl, hls⟩ := k2 g (c g hg)
        rw [List.getLast?_map, hl, Option.map_some, put_same hls]
      · intro w hw c' hc'
        obtain ⟨s, -, rfl⟩ := List.mem_map.1 hw
        exact put_other hc'
      · intro w hw
        obtain ⟨s, hs2, rfl⟩ := List.mem_map.1 hw
        obtain ⟨m2, hv⟩ := k3 s hs2
        obtain ⟨ok, c2, g1, g2, -⟩ := isValid_spec he (m := allow m) (A := σ.A) (holds_fill hB e3.space)
          hq s e3.col
        rw [hv] at g1
        cases g1
        exact g2.1 rfl

/-! ## Cases -/

/-- Two balls of radius 1 on the z axis, at the values of variables 0 and 1; planning moves the
second. -/
noncomputable def rail : Env where
  scene := [[⟨true, 1, .sphere 1⟩], [⟨true, 1, .sphere 1⟩]]
  sub := ⟨1, fun _ => 1, 1, fun _ => 1, none⟩
  fk := fun q i => at' 0 0 (q i)
  collide := ideal
  visits := fun _ => [(0, 1)]
  pick := fun l => l.head?

theorem rail_ok : EnvOk rail := by
  refine ⟨ideal_ok, fun tf => ?_, ?_, fun j _ => ?_, fun i j hi hj _ => ?_, fun l => ?_⟩
  · have : (objects rail.scene).length = 2 := rfl
    rw [this]
    refine ⟨by simp [rail], fun i j hi hj hne _ => ?_⟩
    have : i = 0 ∧ j = 1 ∨ i = 1 ∧ j = 0 := by omega
    rcases this with ⟨rfl, rfl⟩ | ⟨rfl, rfl⟩ <;> simp [rail]
  · intro gs h1 g h2 _
    simp [rail] at h1
    subst h1
    simp at h2
    subst h2
    simp [Supported]
  · simp [rail]
  · simp [rail] at hi hj
    omega
  · cases l with
    | nil => simp [rail]
    | cons p l => simp [rail]

theorem rail_put (s q : Cfg) : put rail.sub s q = fun c => if c = 1 then s 0 else q c := by
  funext c
  simp only [put, rail, List.range_one, List.find?_cons, List.find?_nil]
  by_cases h : c = 1
  · subst h; simp
  · rw [if_neg h]
    have : ¬ (1 : Int) = c := by omega
    simp [this]

theorem rail_touch (q : Cfg) (p : Sym2 Nat) : Touch rail q p ↔ p = s(0, 1) ∧ |q 0 - q 1| ≤ 2 := by
  have occ : ∀ (z : ℝ) (r : V3), (⟨true, 1, .sphere 1⟩ : Geom).occupies (at' 0 0 z) r ↔
      r.x * r.x + r.y * r.y + (r.z - z) * (r.z - z) ≤ 1 := by
    intro z r
    simp only [Geom.occupies, Shape.solid, GlMesh.Ball, vdot, tf_at, vscal]
    constructor
    · rintro ⟨a, h, rfl⟩
      simp only [add_zero, add_sub_cancel_right]
      linarith
    · intro h
      refine ⟨⟨r.x, r.y, r.z - z⟩, by dsimp only; linarith, ?_⟩
      obtain ⟨x, y, z⟩ := r
      simp
  have both : ∀ u v : ℝ, (∃ r, (⟨true, 1, .sphere 1⟩ : Geom).occupies (at' 0 0 u) r ∧
      (⟨true, 1, .sphere 1⟩ : Geom).occupies (at' 0 0 v) r) ↔ |u - v| ≤ 2 := by
    intro u v
    constructor
    · rintro ⟨r, h1, h2⟩
      rw [occ] at h1 h2
      have a1 : (r.z - u) * (r.z - u) ≤ 1 := by nlinarith [mul_self_nonneg r.x, mul_self_nonneg r.y]
      have a2 : (r.z - v) * (r.z - v) ≤ 1 := by nlinarith [mul_self_nonneg r.x, mul_self_nonneg r.y]
      have b1 := abs_le_of_sq_le_sq' (a := r.z - u) (b := 1) (by nlinarith) zero_le_one
      have b2 := abs_le_of_sq_le_sq' (a := r.z - v) (b := 1) (by nlinarith) zero_le_one
      rw [abs_le]
      constructor <;> linarith [b1.1, b1.2, b2.1, b2.2]
    · intro h
      rw [abs_le] at h
      refine ⟨⟨0, 0, (u + v) / 2⟩, (occ _ _).2 ?_, (occ _ _).2 ?_⟩ <;> dsimp only <;> nlinarith
  have get : ∀ a gs, rail.scene[a]? = some gs → a < 2 ∧ gs = [⟨true, 1, .sphere 1⟩] := by
    intro a gs h
    have ha : a < 2 := by
      have := (List.getElem?_eq_some_iff.1 h).1
      simpa [rail] using this
    refine ⟨ha, ?_⟩
    have : a = 0 ∨ a = 1 := by omega
    rcases this with rfl | rfl <;> simp [rail] at h <;> exact h.symm
  constructor
  · rintro ⟨a, b, rfl, hab, ga, gb, gas, gbs, h1, h2, h3, h4, -, -, h5⟩
    obtain ⟨ha, rfl⟩ := get a gas h1
    obtain ⟨hb, rfl⟩ := get b gbs h2
    rw [List.mem_singleton] at h3 h4
    subst h3 h4
    have h5' := (both (q a) (q b)).1 h5
    have : a = 0 ∧ b = 1 ∨ a = 1 ∧ b = 0 := by omega
    rcases this with ⟨rfl, rfl⟩ | ⟨rfl, rfl⟩
    · exact ⟨rfl, h5'⟩
    · rw [abs_sub_comm] at h5'
      exact ⟨Sym2.eq_swap, h5'⟩
  · rintro ⟨rfl, h⟩
    exact ⟨0, 1, rfl, by decide, _, _, _, _, rfl, rfl, List.mem_singleton.2 rfl, List.mem_singleton.2 rfl,
      rfl, rfl, (both (q 0) (q 1)).2 h⟩

/-- A configuration of the two balls. -/
def cfg (u v : ℝ) : Cfg := fun c => if c = 1 then v else u

/-- C90 is not vacuous: the balls touch at the start, so that they may; they would not otherwise. -/
example : ∃ m, run rail [.setStart (cfg 0 10), .setGoal (fun _ => 1), .setStart (cfg 0 1),
    .setGoal (fun _ => 1)] (create (clCreate 2)) = some ([.unit, .goal false, .unit, .goal true], m) := by
  obtain ⟨rs, m, h1, h2, -⟩ := C90_history_partial rail rail_ok (clCreate 2) (fun _ => False)
    (holds_create 2) [.setStart (cfg 0 10), .setGoal (fun _ => 1), .setStart (cfg 0 1),
    .setGoal (fun _ => 1)]
    ⟨trivial, ⟨_, rfl⟩, trivial, ⟨_, rfl⟩, trivial⟩
    ⟨trivial, ⟨rfl, rfl⟩, trivial, ⟨rfl, rfl⟩, trivial⟩
  match rs, h2 with
  | [r1, r2, r3, r4], ⟨k1, k2, k3, k4, _⟩ =>
    refine ⟨m, ?_⟩
    rw [h1]
    cases r1 with
    | unit =>
      cases r3 with
      | unit =>
        cases r2 with
        | goal b =>
          cases r4 with
          | goal b' =>
            have hb : b = false := by
              cases b
              · rfl
              · obtain ⟨q, hq, h⟩ := k2.1 rfl
                cases hq
                refine absurd ?_ (h s(0, 1))
                rw [rail_put]
                refine ⟨?_, (rail_touch _ _).2 ⟨rfl, by norm_num [cfg]⟩⟩
                rintro (h | h)
                · exact h
                · have := ((rail_touch _ _).1 h).2
                  norm_num [cfg] at this
            have hb' : b' = true := by
              refine k4.2 ⟨_, rfl, fun p hp => hp.1 (Or.inr ?_)⟩
              have := hp.2
              rw [rail_touch, rail_put] at this
              rw [rail_touch]
              refine ⟨this.1, by norm_num [cfg]⟩
            rw [hb, hb']
          | _ => exact absurd k4 id
        | _ => exact absurd k2 id
      | _ => exact absurd k3 id
    | _ => exact absurd k1 id

/-- **C90** fails if a configuration is allowed after the start: states are then checked with the other
variables of that configuration, but paths are given with those of the start.  Here a goal is
accepted at which the balls overlap. -/
theorem C90_violates_allow_config : ∃ m,
    run rail [.setStart (cfg 0 10), .allowConfig (cfg 100 110), .setGoal (fun _ => 0)]
      (create (clCreate 2)) = some ([.unit, .unit, .goal true], m) ∧
    ¬ Fine rail (specRun rail (spec0 fun _ => False) [.setStart (cfg 0 10), .allowConfig (cfg 100 110)])
      (fun _ => 0) := by
  have h0 := rel_create (e := rail) (holds_create 2)
  obtain ⟨rs, m, h1, h2, h3⟩ := run_spec rail_ok [.setStart (cfg 0 10), .allowConfig (cfg 100 110)] _ _
    h0 ⟨trivial, trivial, trivial⟩ ⟨trivial, trivial, trivial⟩
  obtain ⟨B, hB⟩ := h3.cl
  obtain ⟨ok, c, e1, e2, -⟩ := isValid_spec rail_ok (m := allow m) (holds_fill hB h3.space) h3.q
    (fun _ => 0) h3.col
  have hok : ok = true := by
    refine e2.2 fun p hp => ?_
    have := hp.2
    rw [rail_touch, rail_put] at this
    norm_num [cfg] at this
  subst hok
  have hrs : rs = [.unit, .unit] := by
    match rs, h2 with
    | [.unit, .unit], _ => rfl
  subst hrs
  refine ⟨{ allow m with collisions := c, goal := .joint (fun _ => 0) }, ?_, ?_⟩
  · simp only [run, Option.bind_eq_some_iff, Option.map_eq_some_iff] at h1 ⊢
    obtain ⟨⟨r1, m1⟩, k1, x, ⟨⟨r2, m2⟩, k2, y, k3, rfl⟩, k4⟩ := h1
    cases k3
    cases k4
    refine ⟨_, k1, _, ⟨_, k2, _, ⟨(.goal true, { allow m2 with collisions := c, goal := .joint (fun _ => 0) }),
      ?_, _, rfl, rfl⟩, rfl⟩, rfl⟩
    simp only [step, setGoal, e1, Option.map_some, if_true]
  · rintro ⟨q, hq, h⟩
    cases hq
    refine absurd ?_ (h s(0, 1))
    rw [rail_put]
    refine ⟨?_, (rail_touch _ _).2 ⟨rfl, by norm_num [cfg]⟩⟩
    rintro ((h | h) | h)
    · exact h
    · have := ((rail_touch _ _).1 h).2
      norm_num [cfg] at this
    · have := ((rail_touch _ _).1 h).2
      norm_num [cfg] at this

/-- **C90** fails for a pair that the scene graph allows and the planner does not: the start
configuration is rejected as goal, though all its collisions are assumed to be allowed. -/
theorem C90_violates_disallowed (sg : ClSet) (hS : Holds sg 2 (fun p => p = s(0, 1))) : ∃ m,
    run rail [.allowCollision 0 1 false, .setStart (cfg 0 1), .setGoal (fun _ => 1)]
      (create sg) = some ([.unit, .unit, .goal false], m) ∧
    Fine rail (specRun rail (spec0 fun p => p = s(0, 1))
      [.allowCollision 0 1 false, .setStart (cfg 0 1)]) (fun _ => 1) := by
  obtain ⟨sp, e1, e2⟩ := holds_update (i := 0) (j := 1) hS false (by omega) (by omega)
  obtain ⟨-, h2⟩ := checkAt rail_ok hS (cfg 0 1)
  obtain ⟨d, s', f1, f2, -, f4⟩ := h2 sp _ e2
  obtain ⟨sp', f5, f6⟩ := holds_merge_empty f4
  have hA : Holds sp' 2 (fun _ => False) := by
    refine holds_congr f6 fun i j _ _ => iff_of_false ?_ id
    rintro (h | ⟨h, h'⟩)
    · revert h
      by_cases hp : s(i, j) = s(0, 1) <;> simp [hp]
    · exact h ((rail_touch _ _).1 h').1
  obtain ⟨m1, k1, rfl⟩ : ∃ m1, allowCollision (create sg) 0 1 false = some m1 ∧
      m1 = allow { create sg with space := sp } := by
    refine ⟨_, ?_, rfl⟩
    simp only [allowCollision, create, allow]
    rw [show clSet sg 0 1 false = some sp from e1]
    rfl
  obtain ⟨m2, k2, hm2⟩ : ∃ m2, setStart rail (allow { create sg with space := sp }) (cfg 0 1) = some m2 ∧
      m2 = { allow { allow { create sg with space := sp } with space := sp', qAll := some (cfg 0 1) } with
        starts := [stateOf rail (cfg 0 1)], configStart := some (cfg 0 1) } := by
    refine ⟨_, ?_, rfl⟩
    have : allowConfig rail (allow { create sg with space := sp }) (cfg 0 1) =
        some (allow { allow { create sg with space := sp } with space := sp', qAll := some (cfg 0 1) }) := by
      simp only [allowConfig, getCollision, create, allow]
      rw [f1, Option.bind_some, f2, Option.bind_some, show clMerge s' (clCreate rail.scene.length) = _ from f5]
      rfl
    unfold setStart
    rw [this, Option.bind_some,
      configGet_eq rail.sub (cfg 0 1) _ 0 _ (fun j _ h => rail_ok.pos j (by omega))]
    rfl
  have a1 : Holds (allow m2).cl 2 (fun _ => False) := by
    rw [hm2]
    exact holds_fill (holds_fill (holds_fill (holds_fill hS hS) e2) hA) hA
  have a2 : (allow m2).qAll = some (cfg 0 1) := by rw [hm2]; rfl
  have a3 : Tracks rail.scene.length (allow m2).collisions none := by rw [hm2]; trivial
  obtain ⟨ok, c, g1, g2, -⟩ := isValid_spec rail_ok a1 a2 (fun _ => 1) a3
  have hok : ok = false := by
    cases ok
    · rfl
    · refine absurd ⟨id, (rail_touch _ _).2 ⟨rfl, ?_⟩⟩ (g2.1 rfl s(0, 1))
      rw [rail_put]
      norm_num [cfg]
  subst hok
  have hrun : ∃ m, run rail [.allowCollision 0 1 false, .setStart (cfg 0 1), .setGoal (fun _ => 1)]
      (create sg) = some ([.unit, .unit, .goal false], m) := by
    refine ⟨{ allow m2 with collisions := c }, ?_⟩
    simp only [run, step, k1, Option.map_some, Option.bind_some, k2, setGoal, g1]
    rfl
  obtain ⟨m, hm⟩ := hrun
  refine ⟨m, hm, ?_⟩
  · refine ⟨cfg 0 1, rfl, fun p hp => hp.1 (Or.inr ?_)⟩
    have := hp.2
    rw [rail_touch] at this
    rw [rail_touch]
    exact ⟨this.1, by norm_num [cfg]⟩

theorem rail_valid {S : Sym2 Nat → Prop} {m : Ctx} {σ : Spec} (h : Rel rail S m σ)
    (hgs : σ.given = σ.start) {s : Cfg} (hs : Fine rail σ s) :
    ∃ m', isValid rail (allow m) s = some (true, m') := by
  obtain ⟨B, hB⟩ := h.cl
  obtain ⟨q, hq, hs⟩ := hs
  obtain ⟨ok, c, e1, e2, -⟩ := isValid_spec rail_ok (m := allow m) (holds_fill hB h.space)
    (h.q.trans (hgs.trans hq)) s h.col
  rw [e2.2 hs] at e1
  exact ⟨_, e1⟩

/-- Far away from the first ball, the second is fine. -/
theorem rail_fine {σ : Spec} {u v : ℝ} (hσ : σ.start = some (cfg u v)) (z : ℝ) (h : 2 < |u - z|) :
    Fine rail σ (fun _ => z) := by
  refine ⟨_, hσ, fun p hp => ?_⟩
  have := ((rail_touch _ _).1 hp.2).2
  rw [rail_put] at this
  simp only [if_true, if_neg (show ¬ (0 : Nat) = 1 by decide), cfg] at this
  linarith

theorem same_state (u v : ℝ) : Same rail (fun _ => v) (stateOf rail (cfg u v)) := by
  intro j hj
  rw [stateOf_get rail _ j hj]
  simp [rail, cfg]

theorem put_cfg (u v z : ℝ) : put rail.sub (fun _ => z) (cfg u v) = cfg u z := by
  rw [rail_put]
  funext c
  by_cases h : c = 1
  · subst h; simp [cfg]
  · simp only [if_neg h, cfg]

theorem run_append (e : Env) : ∀ (os os' : List Op) (m : Ctx), run e (os ++ os') m =
    (run e os m).bind fun r => (run e os' r.2).map fun r' => (r.1 ++ r'.1, r'.2) := by
  intro os
  induction os with
  | nil =>
    intro os' m
    simp only [List.nil_append, run, Option.bind_some]
    cases run e os' m <;> rfl
  | cons o os ih =>
    intro os' m
    simp only [List.cons_append, run, ih]
    cases step e m o with
    | none => rfl
    | some r =>
      simp only [Option.bind_some]
      cases run e os r.2 with
      | none => rfl
      | some r1 =>
        simp only [Option.bind_some, Option.map_some]
        cases run e os' r1.2 <;> rfl

theorem rail_plan {S : Sym2 Nat → Prop} {m : Ctx} {σ : Spec} (h : Rel rail S m σ)
    (hgs : σ.given = σ.start) {u v : ℝ} (hσ : σ.start = some (cfg u v)) (found : Option (List Cfg)) :
    ∃ m', step rail m (.plan [] found) = some (.plan [] ((m.sols ++ found.toList).head?.map
      fun path => path.map fun s => put rail.sub s (cfg u v)), m') ∧
      Rel rail S m' (specStep rail σ (.plan [] found)) := by
  obtain ⟨r, m', f1, f2, f3⟩ := step_spec rail_ok h (.plan [] found) ⟨_, hσ⟩ hgs
  cases r with
  | plan oks way =>
    have hw := plan_way rail_ok (h.start.trans hσ) f1
    cases f2
    exact ⟨m', by rw [f1, hw]; rfl, f3⟩
  | _ => exact absurd f2 id

/-- A path from 10 to 20 satisfies the contract. -/
theorem rail_first : ∃ m, run rail [.setStart (cfg 0 10), .setGoal (fun _ => 20)] (create (clCreate 2)) =
      some ([.unit, .goal true], m) ∧
    Contract rail m [fun _ => 10, fun _ => 20] ∧ m.sols = [] ∧
    Rel rail (fun _ => False) m (specRun rail (spec0 fun _ => False)
      [.setStart (cfg 0 10), .setGoal (fun _ => 20)]) := by
  obtain ⟨rs, m, h1, h2, h3⟩ := run_spec rail_ok [.setStart (cfg 0 10), .setGoal (fun _ => 20)] _ _
    (rel_create (e := rail) (holds_create 2)) ⟨trivial, ⟨_, rfl⟩, trivial⟩ ⟨trivial, ⟨rfl, rfl⟩, trivial⟩
  have hrs : rs = [.unit, .goal true] := by
    match rs, h2 with
    | [.unit, .goal ok], ⟨_, k, _⟩ => rw [k.2 (rail_fine rfl 20 (by norm_num))]
  subst hrs
  obtain ⟨a, b, c⟩ := run_frame rail_ok _ (g := none) h1 (fun t ht => by cases ht)
  refine ⟨m, h1, ?_, b, h3⟩
  refine ⟨⟨stateOf rail (cfg 0 10), by rw [a]; simp [startsOf], _, rfl, same_state 0 10⟩, fun g hg => ?_, ?_⟩
  · rw [c _ rfl] at hg
    cases hg
    exact ⟨_, rfl, fun _ _ => rfl⟩
  · intro s hs
    rcases List.mem_cons.1 hs with rfl | hs
    · exact rail_valid h3 rfl (rail_fine rfl 10 (by norm_num))
    · rw [List.mem_singleton] at hs
      subst hs
      exact rail_valid h3 rfl (rail_fine rfl 20 (by norm_num))

/-- C91 is not vacuous. -/
example : ∃ rs m m', run rail [.setStart (cfg 0 10), .setGoal (fun _ => 20)] (create (clCreate 2)) =
      some (rs, m) ∧ Contract rail m [fun _ => 10, fun _ => 20] ∧
    step rail m (.plan [] (some [fun _ => 10, fun _ => 20])) =
      some (.plan [] (some [cfg 0 10, cfg 0 20]), m') ∧
    GoodPlan rail (specRun rail (spec0 fun _ => False) [.setStart (cfg 0 10), .setGoal (fun _ => 20)]).A
      (cfg 0 10) (some fun _ => 20) [cfg 0 10, cfg 0 20] := by
  obtain ⟨m, h1, h2, h3, h4⟩ := rail_first
  obtain ⟨rs, m1, k1, k2⟩ := C91_path_partial rail rail_ok (clCreate 2) (fun _ => False) (holds_create 2)
    [] [.setGoal (fun _ => 20)] (cfg 0 10) [] (some [fun _ => 10, fun _ => 20]) (by simp) (by simp)
    ⟨trivial, ⟨_, rfl⟩, ⟨_, rfl⟩, trivial⟩ ⟨trivial, ⟨rfl, rfl⟩, rfl, trivial⟩
  rw [List.nil_append, h1] at k1
  cases k1
  obtain ⟨oks, way, m', f1, -, f3⟩ := k2 (fun path hp => by cases hp; exact h2)
  obtain ⟨m'', g1, -⟩ := rail_plan h4 rfl (u := 0) (v := 10) rfl (some [fun _ => 10, fun _ => 20])
  have hw : way = some [cfg 0 10, cfg 0 20] := by
    rw [f1, h3] at g1
    cases g1
    simp [put_cfg]
  subst hw
  refine ⟨_, m, m'', h1, h2, ?_, f3 _ rfl⟩
  rw [g1, h3]
  simp [put_cfg]

/-- **C91** fails after a second plan: solutions are never cleared, so that a plan for a new goal that
finds nothing returns `AA_RX_OK` with the path to the former goal. -/
theorem C91_violates_stale : ∃ m m',
    run rail [.setStart (cfg 0 10), .setGoal (fun _ => 20)] (create (clCreate 2)) =
      some ([.unit, .goal true], m) ∧
    Contract rail m [fun _ => 10, fun _ => 20] ∧
    run rail [.plan [] (some [fun _ => 10, fun _ => 20]), .setGoal (fun _ => 30), .plan [] none] m =
      some ([.plan [] (some [cfg 0 10, cfg 0 20]), .goal true, .plan [] (some [cfg 0 10, cfg 0 20])], m') := by
  obtain ⟨m, h1, h2, h3, h4⟩ := rail_first
  obtain ⟨m1, g1, r1⟩ := rail_plan h4 rfl (u := 0) (v := 10) rfl (some [fun _ => 10, fun _ => 20])
  have s1 := (step_frame rail_ok (g := none) g1 (fun t ht => by cases ht)).2.1
  obtain ⟨r, m2, g2, k2, r2⟩ := step_spec rail_ok r1 (.setGoal fun _ => 30) ⟨_, rfl⟩ ⟨rfl, rfl⟩
  have hr : r = .goal true := by
    match r, k2 with
    | .goal ok, k => rw [k.2 (rail_fine rfl 30 (by norm_num))]
  subst hr
  have s2 := (step_frame rail_ok (g := none) g2 (fun t ht => by cases ht)).2.1
  obtain ⟨m3, g3, r3⟩ := rail_plan r2 rfl (u := 0) (v := 10) rfl none
  refine ⟨m, m3, h1, h2, ?_⟩
  rw [s2, s1, h3] at g3
  rw [h3] at g1
  simp only [run, g1, g2, g3, Option.bind_some, Option.map_some]
  simp [put_cfg, foundOf]

/-- **C91** fails if the start is set again: the former start remains a start state, and a path that
begins there is accepted. -/
theorem C91_violates_restart : ∃ m m',
    run rail [.setStart (cfg 0 10), .setStart (cfg 0 20), .setGoal (fun _ => 30)] (create (clCreate 2)) =
      some ([.unit, .unit, .goal true], m) ∧
    Contract rail m [fun _ => 10, fun _ => 30] ∧
    step rail m (.plan [] (some [fun _ => 10, fun _ => 30])) =
      some (.plan [] (some [cfg 0 10, cfg 0 30]), m') ∧ cfg 0 10 ≠ cfg 0 20 := by
  obtain ⟨rs, m, h1, h2, h3⟩ := run_spec rail_ok [.setStart (cfg 0 10), .setStart (cfg 0 20),
    .setGoal (fun _ => 30)] _ _
    (rel_create (e := rail) (holds_create 2)) ⟨trivial, trivial, ⟨_, rfl⟩, trivial⟩
    ⟨trivial, trivial, ⟨rfl, rfl⟩, trivial⟩
  have hrs : rs = [.unit, .unit, .goal true] := by
    match rs, h2 with
    | [.unit, .unit, .goal ok], ⟨_, _, k, _⟩ => rw [k.2 (rail_fine rfl 30 (by norm_num))]
  subst hrs
  obtain ⟨a, b, c⟩ := run_frame rail_ok _ (g := none) h1 (fun t ht => by cases ht)
  obtain ⟨m', g1, -⟩ := rail_plan h3 rfl (u := 0) (v := 20) rfl (some [fun _ => 10, fun _ => 30])
  refine ⟨m, m', h1, ?_, ?_, fun h => ?_⟩
  · refine ⟨⟨stateOf rail (cfg 0 10), by rw [a]; simp [startsOf], _, rfl, same_state 0 10⟩, fun g hg => ?_, ?_⟩
    · rw [c _ rfl] at hg
      cases hg
      exact ⟨_, rfl, fun _ _ => rfl⟩
    · intro s hs
      rcases List.mem_cons.1 hs with rfl | hs
      · exact rail_valid h3 rfl (rail_fine rfl 10 (by norm_num))
      · rw [List.mem_singleton] at hs
        subst hs
        exact rail_valid h3 rfl (rail_fine rfl 30 (by norm_num))
  · rw [b] at g1
    rw [g1]
    simp [put_cfg, foundOf, create, allow]
  · have := congrFun h 1
    norm_num [cfg] at this

/-- **C91** fails if a joint goal replaces a workspace goal: planning uses the workspace goal, which has
been deleted. -/
theorem C91_violates_dangling (checks : List Cfg) (found : Option (List Cfg)) : ∃ m,
    run rail [.setStart (cfg 0 10), .setWsgoal, .setGoal (fun _ => 20)] (create (clCreate 2)) =
      some ([.unit, .unit, .goal true], m) ∧
    step rail m (.plan checks found) = none := by
  obtain ⟨rs, m, h1, h2, h3⟩ := run_spec rail_ok [.setStart (cfg 0 10)] _ _
    (rel_create (e := rail) (holds_create 2)) ⟨trivial, trivial⟩ ⟨trivial, trivial⟩
  have hrs : rs = [.unit] := by
    match rs, h2 with
    | [.unit], _ => rfl
  subst hrs
  obtain ⟨B, hB⟩ := h3.cl
  obtain ⟨ok, c, e1, e2, e3⟩ := isValid_spec rail_ok (m := allow (setWsgoal m)) (holds_fill hB h3.space)
    h3.q (fun _ => 20) h3.col
  have hok : ok = true := by
    obtain ⟨q, hq, h⟩ := rail_fine (σ := specRun rail (spec0 fun _ => False) [.setStart (cfg 0 10)])
      (u := 0) (v := 10) rfl 20 (by norm_num)
    cases hq
    exact e2.2 h
  subst hok
  refine ⟨{ allow (setWsgoal m) with collisions := c, goal := .joint fun _ => 20 }, ?_, ?_⟩
  · rw [show [Op.setStart (cfg 0 10), .setWsgoal, .setGoal (fun _ => 20)] =
      [.setStart (cfg 0 10)] ++ [.setWsgoal, .setGoal (fun _ => 20)] from rfl, run_append, h1]
    simp only [Option.bind_some, run, step, setGoal, e1, Option.map_some, if_true]
    rfl
  · have hc : c = none := by
      cases c with
      | none => rfl
      | some c => exact absurd e3 id
    subst hc
    rfl

end Verif.Mp
