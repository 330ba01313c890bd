import Verif.Model.PyDist
import Verif.Prop.FclDist

/-!
# C172: separation distances from Python

What the distances and points are after a check is C89; this is about how they are reached from Python.
-/

namespace Verif.PyDist

open Verif.Sg Verif.Fcl Verif.PyCl Verif.Tf

/-- A pair of a frame with itself has distance and points zero. -/
def Diag (n : Nat) (d : DistData) : Prop := ∀ a, a < n → d.data (a * n + a) = ⟨0, ⟨0, 0, 0⟩, ⟨0, 0, 0⟩⟩

/-- The same distances for all pairs of frames, and the same answer. -/
def SameDist (n : Nat) (d e : DistData) : Prop :=
  d.inCollision = e.inCollision ∧ ∀ a b, b ≤ a → a < n → (d.data (b * n + a)).dist = (e.data (b * n + a)).dist

theorem entPos_some {n : Nat} {i j : Nat} {k : Nat} (h : entPos n i j = some k) :
    j ≤ i ∧ i < n ∧ k = j * n + i := by
  simp only [entPos] at h
  split at h
  · simp only [Int.toNat_natCast, Option.some.injEq] at h
    omega
  · simp at h

theorem callback_diag {n : Nat} {allowed : ClSet} {frame : Nat → Nat} {fdist : Nat → Nat → FclDist}
    {d : DistData} {a b : Nat} {r : DistData × Bool} (hd : Diag n d)
    (h : distCallback allowed n frame fdist d a b = some r) : Diag n r.1 := by
  simp only [distCallback] at h
  split_ifs at h with h0 h1
  all_goals first
    | (cases h; exact hd)
    | skip
  all_goals
    split at h
    · cases h
    · cases h; exact hd
    · split at h
      · cases h
      · rename_i k hk
        obtain ⟨k1, k2, k3⟩ := entPos_some hk
        split_ifs at h
        · cases h
          intro c hc
          have hne : c * n + c ≠ k := by
            intro e
            rw [k3] at e
            have := ent_inj hc k2 e
            omega
          simp only [Function.update_of_ne hne]
          exact hd c hc
        · cases h; exact hd

theorem visit_inv {σ : Type} {cb : σ → Nat → Nat → Option (σ × Bool)} {I : σ → Prop}
    (h : ∀ s a b r, I s → cb s a b = some r → I r.1) : ∀ (l : List (Nat × Nat)) (s t : σ), I s →
    visit cb l s = some t → I t := by
  intro l
  induction l with
  | nil => intro s t hs e; cases e; exact hs
  | cons p l ih =>
    intro s t hs e
    simp only [visit] at e
    split at e
    · cases e
    · rename_i s' hc; cases e; exact h _ _ _ _ hs hc
    · rename_i s' hc; exact ih _ _ (h _ _ _ _ hs hc) e

theorem check_diag {dblMax : ℝ} {n : Nat} {d e : DistData} {c : Check} (h : check dblMax n d c = some e) :
    Diag n e :=
  visit_inv (I := Diag n) (fun _ _ _ _ hs hc => callback_diag hs hc) _ _ _
    (fun a ha => (distInit_get dblMax n d.data).1 a ha) h

theorem checks_diag {dblMax : ℝ} {n : Nat} (cs : List Check) : ∀ {d e : DistData}, Diag n d →
    checks dblMax n d cs = some e → Diag n e := by
  induction cs with
  | nil => intro d e hd h; cases h; exact hd
  | cons c cs ih =>
    intro d e _ h
    obtain ⟨d', h1, h2⟩ := Option.bind_eq_some_iff.mp h
    exact ih (check_diag h1) h2

theorem callback_same {n : Nat} {allowed : ClSet} {frame : Nat → Nat} {fdist : Nat → Nat → FclDist}
    {d e : DistData} (hs : SameDist n d e) (a b : Nat) :
    (∃ d' e' s, distCallback allowed n frame fdist d a b = some (d', s) ∧
      distCallback allowed n frame fdist e a b = some (e', s) ∧ SameDist n d' e') ∨
    (distCallback allowed n frame fdist d a b = none ∧ distCallback allowed n frame fdist e a b = none) := by
  simp only [distCallback]
  generalize (if frame a < frame b then b else a) = o1
  generalize (if frame a < frame b then a else b) = o2
  by_cases h0 : frame a = frame b
  · simp only [h0, if_true]; exact .inl ⟨_, _, _, rfl, rfl, hs⟩
  · simp only [h0, if_false]
    cases clGet allowed (frame o1) (frame o2) with
    | none => exact .inr ⟨rfl, rfl⟩
    | some v =>
      cases v with
      | true => exact .inl ⟨_, _, _, rfl, rfl, hs⟩
      | false =>
        cases hk : entPos n (frame o1) (frame o2) with
        | none => exact .inr ⟨rfl, rfl⟩
        | some k =>
          obtain ⟨k1, k2, k3⟩ := entPos_some hk
          have hkd : (d.data k).dist = (e.data k).dist := by rw [k3]; exact hs.2 _ _ k1 k2
          simp only [hkd, hs.1]
          split_ifs
          · refine .inl ⟨_, _, _, rfl, rfl, rfl, fun a b hb ha => ?_⟩
            by_cases hp : b * n + a = k
            · simp [hp]
            · simp only [Function.update_of_ne hp]; exact hs.2 a b hb ha
          · exact .inl ⟨_, _, _, rfl, rfl, rfl, hs.2⟩

theorem visit_same {n : Nat} {allowed : ClSet} {frame : Nat → Nat} {fdist : Nat → Nat → FclDist}
    (l : List (Nat × Nat)) : ∀ {d e : DistData}, SameDist n d e →
    (∃ d' e', visit (distCallback allowed n frame fdist) l d = some d' ∧
      visit (distCallback allowed n frame fdist) l e = some e' ∧ SameDist n d' e') ∨
    (visit (distCallback allowed n frame fdist) l d = none ∧
      visit (distCallback allowed n frame fdist) l e = none) := by
  induction l with
  | nil => intro d e hs; exact .inl ⟨d, e, rfl, rfl, hs⟩
  | cons p l ih =>
    intro d e hs
    rcases callback_same (allowed := allowed) (frame := frame) (fdist := fdist) hs p.1 p.2 with
      ⟨d', e', s, h1, h2, h3⟩ | ⟨h1, h2⟩
    · simp only [visit, h1, h2]
      cases s with
      | true => exact .inl ⟨d', e', rfl, rfl, h3⟩
      | false => exact ih h3
    · simp only [visit, h1, h2]; exact .inr ⟨trivial, trivial⟩

theorem getDist_nat (n : Nat) (d : DistData) (i j : Nat) (hi : i < n) (hj : j < n) :
    getDist n d i j = some (d.data (min i j * n + max i j)).dist := by
  rcases lt_or_ge i j with h | h
  · have h' : (i : Int) < j := by exact_mod_cast h
    rw [getDist, if_pos h', if_pos h', entPos, if_pos (by omega)]
    simp [min_eq_left h.le, max_eq_right h.le]
  · have h' : ¬ (i : Int) < j := by omega
    rw [getDist, if_neg h', if_neg h', entPos, if_pos (by omega)]
    simp [min_eq_right h, max_eq_left h]

theorem getPoints_nat (n : Nat) (d : DistData) (i j : Nat) (hi : i < n) (hj : j < n) :
    getPoints n d i j = some (if j < i then
      ((d.data (j * n + i)).dist, (d.data (j * n + i)).point0, (d.data (j * n + i)).point1)
      else ((d.data (i * n + j)).dist, (d.data (i * n + j)).point1, (d.data (i * n + j)).point0)) := by
  by_cases h : j < i
  · have h' : (i : Int) > j := by omega
    rw [getPoints, if_pos h', entPos, if_pos (by omega)]
    simp [h]
  · have h' : ¬ (i : Int) > j := by omega
    rw [getPoints, if_neg h', entPos, if_pos (by omega)]
    simp [h]

theorem actual_lt {names : List String} {k : Key} {i : Nat} (h : actual names k = some i) : i < names.length := by
  cases k with
  | int z =>
    simp only [actual] at h
    split_ifs at h with hz
    cases h
    omega
  | str s =>
    simp only [actual, List.idxOf?, List.findIdx?_eq_some_iff_getElem] at h
    exact h.1

/-! ## Theorems -/

/-- Whatever checks there were, an access raises exactly if one of the frames is unknown, and is never
undefined; distances are symmetric and those that come with the points; the points for a pair the other way
round are exchanged; a frame has distance zero to itself. -/
theorem C172_access (dblMax : ℝ) (names : List String) (g : Bool) (cs : List Check) (d : DistData)
    (h : checks dblMax names.length (distCreate g) cs = some d) (k l : Key) :
    (actual names k = none ∨ actual names l = none →
      dist names d k l = some .raised ∧ points names d k l = some .raised) ∧
    (∀ i j, actual names k = some i → actual names l = some j →
      ∃ x p q, dist names d k l = some (.val x) ∧ dist names d l k = some (.val x) ∧
        points names d k l = some (.val (x, p, q)) ∧ points names d l k = some (.val (x, q, p)) ∧
        (i = j → x = 0 ∧ p = ⟨0, 0, 0⟩ ∧ q = ⟨0, 0, 0⟩)) := by
  have hdiag : Diag names.length d := checks_diag cs (fun _ _ => rfl) h
  refine ⟨fun hk => ?_, fun i j hi hj => ?_⟩
  · simp only [dist, points, withPair]
    cases hk' : actual names k with
    | none => exact ⟨rfl, rfl⟩
    | some i =>
      rcases hk with hk | hk
      · rw [hk] at hk'; cases hk'
      · simp only [hk]; exact ⟨trivial, trivial⟩
  · have hil := actual_lt hi
    have hjl := actual_lt hj
    simp only [dist, points, withPair, hi, hj, getDist_nat _ d i j hil hjl, getDist_nat _ d j i hjl hil,
      getPoints_nat _ d i j hil hjl, getPoints_nat _ d j i hjl hil, Option.map_some]
    rcases lt_trichotomy i j with hij | hij | hij
    · refine ⟨(d.data (i * names.length + j)).dist, (d.data (i * names.length + j)).point1,
        (d.data (i * names.length + j)).point0, ?_, ?_, ?_, ?_, fun e => absurd e (by omega)⟩
      · simp [min_eq_left hij.le, max_eq_right hij.le]
      · simp [min_eq_right hij.le, max_eq_left hij.le]
      · simp [show ¬ j < i by omega]
      · simp [hij]
    · subst hij
      have := hdiag i hil
      exact ⟨0, ⟨0, 0, 0⟩, ⟨0, 0, 0⟩, by simp [this], by simp [this], by simp [this], by simp [this],
        fun _ => ⟨rfl, rfl, rfl⟩⟩
    · refine ⟨(d.data (j * names.length + i)).dist, (d.data (j * names.length + i)).point0,
        (d.data (j * names.length + i)).point1, ?_, ?_, ?_, ?_, fun e => absurd e (by omega)⟩
      · simp [min_eq_right hij.le, max_eq_left hij.le]
      · simp [min_eq_left hij.le, max_eq_right hij.le]
      · simp [hij]
      · simp [show ¬ i < j by omega]

/-- The distances after a check are those of this check, whatever checks there were before it. -/
theorem C172_latest_partial (dblMax : ℝ) (names : List String) (d d' : DistData) (c : Check)
    (h : check dblMax names.length d c = some d') (g : Bool) :
    ∃ e, check dblMax names.length (distCreate g) c = some e ∧
      ∀ k l, dist names d' k l = dist names e k l := by
  have hs : SameDist names.length ⟨false, distInit dblMax names.length d.data⟩
      ⟨false, distInit dblMax names.length (distCreate g).data⟩ := by
    refine ⟨rfl, fun a b hb ha => ?_⟩
    rcases hb.lt_or_eq with hb | rfl
    · rw [(distInit_get _ _ _).2 a b hb ha, (distInit_get _ _ _).2 a b hb ha]
    · show (distInit _ _ _ _).dist = (distInit _ _ _ _).dist
      rw [(distInit_get _ _ _).1 b ha, (distInit_get _ _ _).1 b ha]
  rcases visit_same (allowed := c.allowed) (frame := c.frame) (fdist := c.fdist) c.visits hs with
    ⟨d1, e1, h1, h2, h3⟩ | ⟨h1, h2⟩
  · simp only [check, distCheck] at h ⊢
    rw [h1] at h
    cases h
    refine ⟨e1, h2, fun k l => ?_⟩
    simp only [dist, withPair]
    cases hk : actual names k with
    | none => rfl
    | some i =>
      cases hl : actual names l with
      | none => rfl
      | some j =>
        have hi := actual_lt hk
        have hj := actual_lt hl
        simp only [getDist_nat _ _ i j hi hj]
        rw [h3.2 (max i j) (min i j) (by omega) (by omega)]
  · simp only [check, distCheck] at h
    rw [h1] at h
    cases h

/-- Two objects, of frames 0 and 1, with nearest points at distance 1; no pair is allowed. -/
def near : Check := ⟨clCreate 2, id, fun _ _ => ⟨1, ⟨5, 0, 0⟩, ⟨6, 0, 0⟩, []⟩, [(1, 0)]⟩

/-- The same after the pair was allowed. -/
def nearAllowed : Check := { near with allowed := (clSet (clCreate 2) 1 0 true).getD (clCreate 2) }

/-- Violated: points of a pair that the latest check does not compute are those of an earlier check, with the
distance of the latest. -/
theorem C172_stale_violates (dblMax : ℝ) (h : 1 < dblMax) :
    ∃ d e, checks dblMax 2 (distCreate false) [near, nearAllowed] = some d ∧
      check dblMax 2 (distCreate false) nearAllowed = some e ∧
      points ["a", "b"] d (.str "b") (.int 0) = some (.val (dblMax, ⟨5, 0, 0⟩, ⟨6, 0, 0⟩)) ∧
      points ["a", "b"] e (.str "b") (.int 0) = some (.val (dblMax, ⟨0, 0, 0⟩, ⟨0, 0, 0⟩)) := by
  have g0 : clGet (clCreate 2) 1 0 = some false := by decide
  have g1 : clGet ((clSet (clCreate 2) 1 0 true).getD (clCreate 2)) 1 0 = some true := by decide
  have a0 : actual ["a", "b"] (.str "b") = some 1 := by decide
  have a1 : actual ["a", "b"] (.int 0) = some 0 := by decide
  have e0 : entPos 2 1 0 = some 1 := by decide
  have hi : ∀ d : Nat → Ent, distInit dblMax 2 d 1 = { d 1 with dist := dblMax } := fun d => by
    simp [distInit, List.range_succ]
  have c1 : ∀ d, check dblMax 2 d near =
      some ⟨false, Function.update (distInit dblMax 2 d.data) 1 ⟨1, ⟨5, 0, 0⟩, ⟨6, 0, 0⟩⟩⟩ := fun d => by
    simp [check, distCheck, near, visit, distCallback, g0, e0, pairEnt, hi, h, show ¬ (1 : ℝ) ≤ 0 by norm_num]
  have c2 : ∀ d, check dblMax 2 d nearAllowed = some ⟨false, distInit dblMax 2 d.data⟩ := fun d => by
    simp [check, distCheck, nearAllowed, near, visit, distCallback, g1]
  refine ⟨_, _, by rw [checks, c1, Option.bind_some, checks, c2, Option.bind_some, checks], c2 _, ?_, ?_⟩
  · simp [points, withPair, a0, a1, getPoints, e0, hi]
  · simp [points, withPair, a0, a1, getPoints, e0, hi, distCreate]

/-- The hypotheses of `C172_access` and `C172_latest_partial` hold. -/
example : ∃ d, checks 9 2 (distCreate false) [near, nearAllowed] = some d :=
  let ⟨d, _, h, _⟩ := C172_stale_violates 9 (by norm_num)
  ⟨d, h⟩

end Verif.PyDist
