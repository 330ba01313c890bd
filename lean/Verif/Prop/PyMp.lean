import Verif.Model.PyMp
import Verif.Prop.Mp

/-!
# C147: motion planning in Python
-/

namespace Verif.PyMp

open Verif.Tf Verif.Fcl Verif.Mp

/-- What may touch: what the scene graph allows, and what touches at the start. -/
def May (e : Env) (S : Sym2 Nat → Prop) (q : Cfg) : Sym2 Nat → Prop := fun p => S p ∨ Touch e q p

/-- The variables of the sub-scenegraph are variables of the scene graph. -/
def Inside (e : Env) (nAll : Nat) : Prop := ∀ j, j < e.sub.configCount → e.sub.configs j < nAll

/-! ## Lemmas -/

theorem flat_length (n : Nat) (w : List Cfg) : (flat n w).length = w.length * n := by
  induction w with
  | nil => simp [flat]
  | cons c w ih =>
    simp only [flat, List.flatMap_cons, List.length_append, List.length_map, List.length_range,
      List.length_cons] at ih ⊢
    rw [ih]; ring

theorem flat_get (n : Nat) (w : List Cfg) (i j : Nat) (hi : i < w.length) (hj : j < n) :
    (flat n w).getD (i * n + j) 0 = w[i] j := by
  induction w generalizing i with
  | nil => simp at hi
  | cons c w ih =>
    have e : flat n (c :: w) = (List.range n).map c ++ flat n w := rfl
    rw [e]
    cases i with
    | zero =>
      rw [List.getD_eq_getElem?_getD, List.getElem?_append_left (by simpa using hj)]
      simp [hj]
    | succ i =>
      have hi' : i < w.length := by simpa using hi
      rw [List.getD_eq_getElem?_getD, List.getElem?_append_right (by
        simp only [List.length_map, List.length_range]; nlinarith)]
      have : (i + 1) * n + j - ((List.range n).map c).length = i * n + j := by
        simp only [List.length_map, List.length_range]
        have : (i + 1) * n = i * n + n := by ring
        omega
      rw [this, ← List.getD_eq_getElem?_getD, ih i hi']
      rfl

theorem rows_flat (n : Nat) (w : List Cfg) :
    rows n w.length (flat n w) = .ok (w.map fun c => (List.range n).map c) := by
  unfold rows
  rw [if_neg (by rw [flat_length]; omega)]
  congr 1
  apply List.ext_getElem
  · simp
  · intro i h1 h2
    simp only [List.length_map, List.length_range] at h1
    simp only [List.getElem_map, List.getElem_range]
    apply List.map_congr_left
    intro j hj
    exact flat_get n w i j h1 (List.mem_range.1 hj)

/-- A list is the row of its array. -/
theorem row_toCfg (l : List ℝ) : (List.range l.length).map (toCfg l) = l := by
  apply List.ext_getElem
  · simp
  · intro i h1 h2
    simp [toCfg, List.getD_eq_getElem?_getD, h2]

theorem toCfg_row (n : Nat) (c : Cfg) (h : ∀ i, n ≤ i → c i = 0) : toCfg ((List.range n).map c) = c := by
  funext i
  simp only [toCfg, List.getD_eq_getElem?_getD]
  by_cases hi : i < n
  · simp [hi]
  · simp [hi, h i (by omega)]

theorem planned_none (n len lk : Nat) (oks : List Bool) (m : Ctx) :
    planned n len lk ((oks, none), m) = .ok (none, ⟨m, lk⟩) := rfl

theorem planned_some (n lk : Nat) (oks : List Bool) (w : List Cfg) (m : Ctx) :
    planned n n lk ((oks, some w), m) =
      .ok (some (w.map fun c => (List.range n).map c), ⟨m, lk + w.length * n⟩) := by
  simp only [planned, rows_flat]

/-- A call, in a state that follows the specification. -/
theorem call_spec {e : Env} (he : EnvOk e) {S : Sym2 Nat → Prop} {p : Py} {σ : Spec}
    (h : Rel e S p.mp σ) (hws : σ.ws = false) (start goal : List ℝ)
    (hg : goal.length = e.sub.configCount) (checks : List Cfg) (found : Option (List Cfg)) :
    ∃ m1 m2 ok, step e p.mp (.setStart (toCfg start)) = some (.unit, m1) ∧
      step e m1 (.setGoal (toCfg goal)) = some (.goal ok, m2) ∧
      (ok = true ↔ Fine e (specStep e σ (.setStart (toCfg start))) (toCfg goal)) ∧
      Rel e S m2 (specRun e σ [.setStart (toCfg start), .setGoal (toCfg goal)]) ∧
      m2.sols = p.mp.sols ∧
      (ok = false → motionPlan e start.length p start goal checks found = .ok (none, ⟨m2, p.leaked⟩)) ∧
      (ok = true → ∃ oks way m3, step e m2 (.plan checks found) = some (.plan oks way, m3) ∧
        Rel e S m3 (specRun e σ [.setStart (toCfg start), .setGoal (toCfg goal), .plan checks found]) ∧
        m3.sols = p.mp.sols ++ found.toList ∧
        way = (e.pick (p.mp.sols ++ found.toList)).map (fun path => path.map fun s =>
          put e.sub s (toCfg start)) ∧
        motionPlan e start.length p start goal checks found =
          planned start.length start.length p.leaked ((oks, way), m3)) := by
  obtain ⟨r1, m1, a1, a2, a3⟩ := step_spec he h (.setStart (toCfg start)) trivial trivial
  obtain ⟨r2, m2, b1, b2, b3⟩ := step_spec he a3 (.setGoal (toCfg goal)) ⟨_, rfl⟩ ⟨rfl, hws⟩
  cases r1 with
  | goal _ => exact absurd a2 id
  | plan _ _ => exact absurd a2 id
  | unit =>
  cases r2 with
  | unit => exact absurd b2 id
  | plan _ _ => exact absurd b2 id
  | goal ok =>
  have ss : m2.sols = p.mp.sols := by
    rw [(step_frame he (g := none) b1 (fun t ht => by cases ht)).2.1,
      (step_frame he (g := none) a1 (fun t ht => by cases ht)).2.1]
    simp [foundOf]
  have sa : setStart e p.mp (toCfg start) = some m1 := by
    simp only [Mp.step, Option.map_eq_some_iff, Prod.mk.injEq] at a1
    obtain ⟨x, hx, -, rfl⟩ := a1
    exact hx
  have sb : setGoal e m1 (toCfg goal) = some (ok, m2) := by
    simp only [Mp.step, Option.map_eq_some_iff, Prod.mk.injEq] at b1
    obtain ⟨⟨x, y⟩, hx, h1, rfl⟩ := b1
    cases h1
    exact hx
  have mpl : motionPlan e start.length p start goal checks found =
      goalSet e start.length start.length p.leaked checks found (ok, m2) := by
    unfold motionPlan
    rw [if_neg (by omega), if_neg (by simp)]
    simp only [sa, sb]
    rw [if_neg (by simp [hg])]
  refine ⟨m1, m2, ok, a1, b1, b2, b3, ss, ?_, ?_⟩
  · rintro rfl
    rw [mpl]; rfl
  · rintro rfl
    obtain ⟨r3, m3, c1, c2, c3⟩ := step_spec he b3 (.plan checks found) ⟨_, rfl⟩ rfl
    cases r3 with
    | unit => exact absurd c2 id
    | goal _ => exact absurd c2 id
    | plan oks way =>
    refine ⟨oks, way, m3, c1, c3, ?_, ?_, ?_⟩
    · rw [(step_frame he (g := none) c1 (fun t ht => by cases ht)).2.1, ss]
      cases found <;> simp [foundOf]
    · rw [← ss]
      exact plan_way he (b3.start.trans rfl) c1
    · rw [mpl]
      have sc : plan e m2 checks found = some ((oks, way), m3) := by
        simp only [Mp.step, Option.map_eq_some_iff, Prod.mk.injEq] at c1
        obtain ⟨⟨⟨x, z⟩, y⟩, hx, h1, rfl⟩ := c1
        cases h1
        exact hx
      simp only [goalSet, if_true, sc]

/-! ## C147 -/

/-- C147: the first call on an object answers `None` exactly if something clashes at the goal or the planner
finds nothing. Otherwise it answers rows of all variables, from the start to the goal, along which the other
variables stay and nothing clashes. Partial: only for the first call on an object, and for lists of the right
lengths. -/
theorem C147_first_partial (e : Env) (he : EnvOk e) (sg : Sg.ClSet) (S : Sym2 Nat → Prop)
    (hS : Holds sg e.scene.length S) (start goal : List ℝ) (hi : Inside e start.length)
    (hg : goal.length = e.sub.configCount) (checks : List Cfg) (found : Option (List Cfg)) :
    ∃ ok m, run e [.setStart (toCfg start), .setGoal (toCfg goal)] (create sg) =
        some ([.unit, .goal ok], m) ∧
      ((∀ path, found = some path → Contract e m path) →
        ∃ r p, motionPlan e start.length (new sg) start goal checks found = .ok (r, p) ∧
          (r = none ↔ found = none ∨
            ∃ c, Clash e (May e S (toCfg start)) (put e.sub (toCfg goal) (toCfg start)) c) ∧
          ∀ l, r = some l → l.head? = some start ∧ (∀ row ∈ l, row.length = start.length) ∧
            GoodPlan e (May e S (toCfg start)) (toCfg start) (some (toCfg goal)) (l.map toCfg)) := by
  obtain ⟨m1, m2, ok, a, b, c, d, ss, n, y⟩ := call_spec he (p := new sg) (rel_create hS) rfl start goal hg
    checks found
  have hrun : run e [.setStart (toCfg start), .setGoal (toCfg goal)] (create sg) =
      some ([.unit, .goal ok], m2) := by
    have a' : Mp.step e (create sg) (.setStart (toCfg start)) = some (.unit, m1) := a
    simp [run, a', b]
  refine ⟨ok, m2, hrun, fun hC => ?_⟩
  have hfine : Fine e (specStep e (spec0 S) (.setStart (toCfg start))) (toCfg goal) ↔
      ¬ ∃ c, Clash e (May e S (toCfg start)) (put e.sub (toCfg goal) (toCfg start)) c := by
    constructor
    · rintro ⟨q, h1, h2⟩ ⟨c, h3⟩
      cases h1
      exact h2 c h3
    · intro h
      exact ⟨_, rfl, fun p hp => h ⟨p, hp⟩⟩
  cases ok with
  | false =>
    refine ⟨_, _, n rfl, ?_, fun l hl => by cases hl⟩
    refine ⟨fun _ => .inr ?_, fun _ => rfl⟩
    by_contra hn
    exact Bool.false_ne_true (c.2 (hfine.2 hn))
  | true =>
    obtain ⟨oks, way, m3, s1, -, -, s4, s5⟩ := y rfl
    have hno := hfine.1 (c.1 rfl)
    obtain ⟨rs, m, p1, p2⟩ := C91_path_partial e he sg S hS [] [.setGoal (toCfg goal)] (toCfg start) checks
      found (by simp) (by simp) ⟨trivial, ⟨_, rfl⟩, ⟨_, rfl⟩, trivial⟩ ⟨trivial, ⟨rfl, rfl⟩, rfl, trivial⟩
    have : (rs, m) = ([.unit, .goal true], m2) := Option.some.inj (p1.symm.trans hrun)
    obtain ⟨rfl, rfl⟩ := Prod.mk.inj this
    obtain ⟨oks', way', m', q1, q2, q3⟩ := p2 hC
    have := Option.some.inj (q1.symm.trans s1)
    obtain ⟨h1, rfl⟩ := Prod.mk.inj this
    obtain ⟨rfl, rfl⟩ := Res.plan.inj h1
    cases way' with
    | none =>
      refine ⟨_, _, s5.trans (planned_none _ _ _ _ _), ?_, fun l hl => by cases hl⟩
      exact ⟨fun _ => .inl (q2.1 rfl), fun _ => rfl⟩
    | some w =>
      have G := q3 w rfl
      refine ⟨_, _, s5.trans (planned_some _ _ _ _ _), ?_, ?_⟩
      · refine ⟨fun h => absurd h (by simp), ?_⟩
        rintro (h | h)
        · exact absurd (q2.2 h) (by simp)
        · exact absurd h hno
      · intro l hl
        cases hl
        have zero : ∀ c ∈ w, ∀ i, start.length ≤ i → c i = 0 := by
          intro c hc i hi'
          rw [G.others c hc i fun j hj h => by have := hi j hj; omega]
          simp [toCfg, List.getD_eq_getElem?_getD, hi']
        refine ⟨?_, ?_, ?_⟩
        · rw [List.head?_map, G.first, Option.map_some, row_toCfg]
        · intro row hr
          obtain ⟨c, -, rfl⟩ := List.mem_map.1 hr
          simp
        · have hw : (w.map fun c => (List.range start.length).map c).map toCfg = w := by
            rw [List.map_map]
            conv_rhs => rw [← List.map_id w]
            apply List.map_congr_left
            intro c hc
            exact toCfg_row _ _ (zero c hc)
          rw [hw]
          exact G

/-- C147, what a second call does, whatever was asked before: if the planner finds nothing, the call still
answers a path, which is the one of the first call put into the new start. -/
theorem second_call (e : Env) (he : EnvOk e) (sg : Sg.ClSet) (S : Sym2 Nat → Prop)
    (hS : Holds sg e.scene.length S) (s1 g1 s2 g2 : List ℝ) (h2 : s2.length = s1.length)
    (k1 : g1.length = e.sub.configCount) (k2 : g2.length = e.sub.configCount) (c1 c2 path : List Cfg)
    (f1 : ∀ c, ¬ Clash e (May e S (toCfg s1)) (put e.sub (toCfg g1) (toCfg s1)) c)
    (f2 : ∀ c, ¬ Clash e (May e (May e S (toCfg s1)) (toCfg s2)) (put e.sub (toCfg g2) (toCfg s2)) c) :
    ∃ r p p', motionPlan e s1.length (new sg) s1 g1 c1 (some path) = .ok (some r, p) ∧
      motionPlan e s1.length p s2 g2 c2 none = .ok (some (path.map fun s =>
        (List.range s1.length).map (put e.sub s (toCfg s2))), p') := by
  obtain ⟨m1, m2, ok, -, -, c, -, -, -, y⟩ := call_spec he (p := new sg) (rel_create hS) rfl s1 g1 k1 c1
    (some path)
  obtain ⟨oks, way, m3, -, r3, s3, w3, e3⟩ := y (c.2 ⟨_, rfl, f1⟩)
  have one : ∀ l : List (List Cfg), l = [path] → e.pick l = some path := by
    rintro l rfl
    obtain ⟨p, hp, hp'⟩ := (he.pick [path]).2 (by simp)
    rw [hp', List.mem_singleton.1 hp]
  have hs3 : m3.sols = [path] := s3
  have hp : e.pick ((new sg).mp.sols ++ (some path).toList) = some path := one _ rfl
  rw [hp] at w3
  subst w3
  rw [Option.map_some, planned_some] at e3
  obtain ⟨m4, m5, ok', -, -, c', -, -, -, y'⟩ := call_spec he (p := ⟨m3, (new sg).leaked +
    (path.map fun s => put e.sub s (toCfg s1)).length * s1.length⟩) r3 rfl s2 g2 k2 c2 none
  obtain ⟨oks', way', m6, -, -, -, w6, e6⟩ := y' (c'.2 ⟨_, rfl, f2⟩)
  rw [one _ (by simp [hs3])] at w6
  subst w6
  rw [Option.map_some, planned_some, h2] at e6
  rw [List.map_map] at e6
  exact ⟨_, _, _, e3, e6⟩

theorem put_list (u v z : ℝ) (i : Nat) (hi : i < 2) :
    put rail.sub (toCfg [z]) (toCfg [u, v]) i = toCfg [u, z] i := by
  rw [rail_put]
  have : i = 0 ∨ i = 1 := by omega
  rcases this with rfl | rfl <;> simp [toCfg]

theorem rail_free (A : Sym2 Nat → Prop) (u v z : ℝ) (h : 2 < |u - z|) (c : Sym2 Nat) :
    ¬ Clash rail A (put rail.sub (toCfg [z]) (toCfg [u, v])) c := by
  intro hc
  have := ((rail_touch _ _).1 hc.2).2
  rw [put_list _ _ _ _ (by decide), put_list _ _ _ _ (by decide)] at this
  simp only [toCfg, List.getD_cons_zero, List.getD_cons_succ] at this
  linarith

/-- C147 is violated when an object is used again: asked for the way from 10 to 30, for which the planner
finds nothing, the second call answers the way from 10 to 20 of the first. -/
theorem C147_reused_violates : EnvOk rail ∧ ∃ r p p',
    motionPlan rail 2 (new (Sg.clCreate 2)) [0, 10] [20] [] (some [toCfg [10], toCfg [20]]) = .ok (r, p) ∧
    motionPlan rail 2 p [0, 10] [30] [] none = .ok (some [[0, 10], [0, 20]], p') := by
  obtain ⟨r, p, p', h1, h2⟩ := second_call rail rail_ok (Sg.clCreate 2) (fun _ => False) (holds_create 2)
    [0, 10] [20] [0, 10] [30] rfl rfl rfl [] [] [toCfg [10], toCfg [20]]
    (rail_free _ _ _ _ (by norm_num)) (rail_free _ _ _ _ (by norm_num))
  refine ⟨rail_ok, some r, p, p', h1, h2.trans ?_⟩
  have : ∀ z : ℝ, (List.range 2).map (put rail.sub (toCfg [z]) (toCfg [0, 10])) = [0, z] := by
    intro z
    have := row_toCfg [0, z]
    rw [← this]
    apply List.map_congr_left
    intro i hi
    exact put_list 0 10 z i (by simpa using hi)
  simp only [List.map_cons, List.map_nil, List.length_cons, List.length_nil, Nat.zero_add, Nat.reduceAdd, this]

/-- C147 is violated for lists of a wrong length: nothing raises; a short start is read past its end, and a
long start or a goal of another length ends the process. -/
theorem C147_length_violates (e : Env) (nAll : Nat) (p : Py) (start goal : List ℝ) (checks : List Cfg)
    (found : Option (List Cfg)) :
    (start.length < nAll → motionPlan e nAll p start goal checks found = .ub) ∧
    (nAll < start.length → motionPlan e nAll p start goal checks found = .abort) ∧
    (∀ S σ, EnvOk e → Rel e S p.mp σ → start.length = nAll → goal.length ≠ e.sub.configCount →
      motionPlan e nAll p start goal checks found = .abort) := by
  refine ⟨fun h => by simp [motionPlan, h], fun h => ?_, fun S σ he h hl hg => ?_⟩
  · unfold motionPlan
    rw [if_neg (by omega), if_pos (by omega)]
  · obtain ⟨r1, m1, a1, a2, a3⟩ := step_spec he h (.setStart (toCfg start)) trivial trivial
    have sa : ∃ m, setStart e p.mp (toCfg start) = some m := by
      simp only [Mp.step, Option.map_eq_some_iff, Prod.mk.injEq] at a1
      obtain ⟨x, hx, -⟩ := a1
      exact ⟨x, hx⟩
    obtain ⟨m, sa⟩ := sa
    unfold motionPlan
    rw [if_neg (by omega), if_neg (by omega)]
    simp only [sa]
    rw [if_pos hg]

/-- C147 is violated for memory: what holds a path that is returned is never released, on any object. -/
theorem C147_leak_violates (e : Env) (nAll : Nat) (p p' : Py) (start goal : List ℝ) (checks : List Cfg)
    (found : Option (List Cfg)) (l : List (List ℝ))
    (h : motionPlan e nAll p start goal checks found = .ok (some l, p')) :
    p'.leaked = p.leaked + l.length * nAll := by
  have hp : ∀ r, planned nAll nAll p.leaked r = .ok (some l, p') → p'.leaked = p.leaked + l.length * nAll := by
    rintro ⟨⟨oks, way⟩, m⟩ h
    cases way with
    | none => simp [planned] at h
    | some w =>
      rw [planned_some] at h
      cases h
      simp
  unfold motionPlan at h
  by_cases h1 : start.length < nAll
  · rw [if_pos h1] at h; cases h
  · rw [if_neg h1] at h
    by_cases h2 : start.length ≠ nAll
    · rw [if_pos h2] at h; cases h
    · rw [if_neg h2] at h
      push Not at h2
      rw [h2] at h
      split at h
      · cases h
      · split_ifs at h
        split at h
        · cases h
        · unfold goalSet at h
          split_ifs at h
          · split at h
            · cases h
            · exact hp _ h
          · cases h

/-- C147 is not vacuous: a first call that answers a path of two rows. -/
example : ∃ r p, motionPlan rail 2 (new (Sg.clCreate 2)) [0, 10] [20] [] (some [toCfg [10], toCfg [20]]) =
    .ok (some r, p) := by
  obtain ⟨r, p, p', h1, -⟩ := second_call rail rail_ok (Sg.clCreate 2) (fun _ => False) (holds_create 2)
    [0, 10] [20] [0, 10] [30] rfl rfl rfl [] [] [toCfg [10], toCfg [20]]
    (rail_free _ _ _ _ (by norm_num)) (rail_free _ _ _ _ (by norm_num))
  exact ⟨r, p, h1⟩

end Verif.PyMp
