import Verif.Model.PyCl
import Verif.Prop.Mp

/-!
# C149: collision checking from Python
-/

namespace Verif.PyCl

open Verif.Sg Verif.Fcl
open Verif.Mp (Env EnvOk Touch Clash Cfg checkAt)

/-! ## Specification -/

/-- A key stands for a frame: it is its number or its name. -/
def Named (names : List String) : Key → Nat → Prop
  | .int i, f => i = f ∧ f < names.length
  | .str s, f => names[f]? = some s

/-- Allowed pairs of the context, and pairs of each set. -/
structure Spec where
  A : Sym2 Nat → Prop
  T : List (Sym2 Nat → Prop)

/-- The pairs of a set. -/
def Spec.at (σ : Spec) (s : Nat) : Sym2 Nat → Prop := σ.T.getD s fun _ => False

/-- The pair that two keys stand for. -/
def IsPair (names : List String) (k l : Key) (p : Sym2 Nat) : Prop :=
  ∃ i j, Named names k i ∧ Named names l j ∧ p = s(i, j)

open Classical in
/-- What calls have to do, as documented: filling and allowing add pairs. -/
noncomputable def specStep (e : Env) (names : List String) (σ : Spec) : Op → Spec
  | .newSet => { σ with T := σ.T ++ [fun _ => False] }
  | .getItem _ _ _ => σ
  | .setItem s k l b => { σ with T := σ.T.set s fun p => if IsPair names k l p then b = true else σ.at s p }
  | .clear s => { σ with T := σ.T.set s fun _ => False }
  | .fill d s => { σ with T := σ.T.set d fun p => σ.at d p ∨ σ.at s p }
  | .allow k l => { σ with A := fun p => σ.A p ∨ IsPair names k l p }
  | .allowSet s => { σ with A := fun p => σ.A p ∨ σ.at s p }
  | .allowConfig q => { σ with A := fun p => σ.A p ∨ Touch e q p }
  | .check _ none => σ
  | .check q (some s) => { σ with T := σ.T.set s (Clash e σ.A q) }

/-- What calls have to answer. -/
def Right (e : Env) (names : List String) (σ : Spec) : Op → Res → Prop
  | .getItem s k l, .bool b => ∃ p, IsPair names k l p ∧ (b = true ↔ σ.at s p)
  | .getItem _ k l, .exc => ¬ ∃ p, IsPair names k l p
  | .setItem _ k l _, .exc => ¬ ∃ p, IsPair names k l p
  | .setItem _ k l _, .unit => ∃ p, IsPair names k l p
  | .allow k l, .exc => ¬ ∃ p, IsPair names k l p
  | .allow k l, .unit => ∃ p, IsPair names k l p
  | .check q _, .bool b => (b = true ↔ ∃ p, Clash e σ.A q p)
  | .newSet, .unit => True
  | .clear _, .unit => True
  | .fill _ _, .unit => True
  | .allowSet _, .unit => True
  | .allowConfig _, .unit => True
  | _, _ => False

/-- The sets that are used exist. -/
def Usable (σ : Spec) : Op → Prop
  | .getItem s _ _ => s < σ.T.length
  | .setItem s _ _ _ => s < σ.T.length
  | .clear s => s < σ.T.length
  | .fill d s => d < σ.T.length ∧ s < σ.T.length
  | .allowSet s => s < σ.T.length
  | .check _ (some s) => s < σ.T.length
  | _ => True

/-- Pairs of frames of the one are pairs of the other. -/
def Sub (n : Nat) (S S' : Sym2 Nat → Prop) : Prop := ∀ i j, i < n → j < n → S s(i, j) → S' s(i, j)

/-- What the code does not get right: filling a set with itself or one that has other pairs, and allowing a
set or a configuration when other pairs are allowed. -/
def Avoids (n : Nat) (σ : Spec) : Op → Prop
  | .fill d s => d ≠ s ∧ Sub n (σ.at d) (σ.at s)
  | .allowSet s => Sub n σ.A (σ.at s)
  | .allowConfig _ => Sub n σ.A fun _ => False
  | _ => True

noncomputable def specRun (e : Env) (names : List String) : Spec → List Op → Spec
  | σ, [] => σ
  | σ, o :: os => specRun e names (specStep e names σ o) os

def Along (e : Env) (names : List String) (P : Spec → Op → Prop) : Spec → List Op → Prop
  | _, [] => True
  | σ, o :: os => P σ o ∧ Along e names P (specStep e names σ o) os

def AllRight (e : Env) (names : List String) : Spec → List Op → List Res → Prop
  | _, [], [] => True
  | σ, o :: os, r :: rs => Right e names σ o r ∧ AllRight e names (specStep e names σ o) os rs
  | _, _, _ => False

/-! ## Lemmas -/

theorem actual_some {names : List String} (hn : names.Nodup) {k : Key} {i : Nat} :
    actual names k = some i ↔ Named names k i := by
  cases k with
  | int z =>
    simp only [actual, Named]
    split_ifs with h
    · rw [Option.some.injEq]; omega
    · simp only [false_iff]; omega
  | str s =>
    simp only [actual, Named]
    constructor
    · intro h
      obtain ⟨h1, h2, -⟩ := List.idxOf?_eq_some_iff.1 h
      rw [List.getElem?_eq_getElem h1, h2]
    · intro h
      obtain ⟨h1, h2⟩ := List.getElem?_eq_some_iff.1 h
      refine List.idxOf?_eq_some_iff.2 ⟨h1, h2, fun j hj h3 => ?_⟩
      have := (List.Nodup.getElem_inj_iff hn).1 (h3.trans h2.symm)
      omega

theorem named_lt {names : List String} {k : Key} {i : Nat} (h : Named names k i) : i < names.length := by
  cases k with
  | int z => exact h.2
  | str s => exact (List.getElem?_eq_some_iff.1 h).1

theorem named_inj {names : List String} (hn : names.Nodup) {k : Key} {i j : Nat} (h1 : Named names k i)
    (h2 : Named names k j) : i = j :=
  Option.some.inj (((actual_some hn).2 h1).symm.trans ((actual_some hn).2 h2))

/-- The code follows the specification. -/
structure Rel (n : Nat) (st : St) (σ : Spec) : Prop where
  a : Holds st.allowed n σ.A
  len : st.sets.length = σ.T.length
  t : ∀ s c, st.sets[s]? = some c → Holds c n (σ.at s)

theorem rel_get {n : Nat} {st : St} {σ : Spec} (h : Rel n st σ) {s : Nat} (hs : s < σ.T.length) :
    ∃ c, st.sets[s]? = some c ∧ Holds c n (σ.at s) := by
  have : s < st.sets.length := by rw [h.len]; exact hs
  exact ⟨_, List.getElem?_eq_getElem this, h.t s _ (List.getElem?_eq_getElem this)⟩

theorem rel_set {n : Nat} {st : St} {σ : Spec} (h : Rel n st σ) {s : Nat} {c : ClSet} {S : Sym2 Nat → Prop}
    (hc : Holds c n S) : Rel n { st with sets := st.sets.set s c } { σ with T := σ.T.set s S } := by
  refine ⟨h.a, by simp [h.len], fun s' c' h' => ?_⟩
  simp only [List.getElem?_set] at h'
  simp only [Spec.at, List.getD_eq_getElem?_getD, List.getElem?_set]
  by_cases e : s = s'
  · subst e
    rw [if_pos rfl] at h' ⊢
    by_cases hl : s < st.sets.length
    · rw [if_pos hl] at h'
      rw [if_pos (by rw [← h.len]; exact hl)]
      cases h'
      exact hc
    · rw [if_neg hl] at h'; cases h'
  · rw [if_neg e] at h' ⊢
    have := h.t s' c' h'
    simpa [Spec.at, List.getD_eq_getElem?_getD] using this

theorem pair_spec {names : List String} (hn : names.Nodup) (k l : Key)
    (f : Nat → Nat → Option (Res × St)) (st : St) :
    (∃ i j, Named names k i ∧ Named names l j ∧ pair names k l f st = f i j) ∨
      ((¬ ∃ p, IsPair names k l p) ∧ pair names k l f st = some (.exc, st)) := by
  unfold pair
  cases hk : actual names k with
  | none =>
    right
    refine ⟨?_, rfl⟩
    rintro ⟨p, i, j, h1, -, -⟩
    rw [(actual_some hn).2 h1] at hk
    cases hk
  | some i =>
    cases hl : actual names l with
    | none =>
      right
      refine ⟨?_, rfl⟩
      rintro ⟨p, i, j, -, h1, -⟩
      rw [(actual_some hn).2 h1] at hl
      cases hl
    | some j => exact .inl ⟨i, j, (actual_some hn).1 hk, (actual_some hn).1 hl, rfl⟩

theorem isPair_iff {names : List String} (hn : names.Nodup) {k l : Key} {i j : Nat} (h1 : Named names k i)
    (h2 : Named names l j) (p : Sym2 Nat) : IsPair names k l p ↔ p = s(i, j) := by
  constructor
  · rintro ⟨i', j', h3, h4, rfl⟩
    rw [named_inj hn h1 h3, named_inj hn h2 h4]
  · rintro rfl
    exact ⟨i, j, h1, h2, rfl⟩

theorem checkInto_spec {e : Env} (he : EnvOk e) {a c : ClSet} {A S : Sym2 Nat → Prop}
    (ha : Holds a e.scene.length A) (hc : Holds c e.scene.length S) (q : Cfg) :
    ∃ b c', checkInto e a q c = some (b, c') ∧ (b = true ↔ ∃ p, Clash e A q p) ∧
      Holds c' e.scene.length (Clash e A q) := by
  obtain ⟨c1, e1, h1⟩ := holds_clear hc
  obtain ⟨d, s', e2, e3, e4, e5⟩ := (checkAt he ha q).2 c1 _ h1
  refine ⟨d.result, s', ?_, e4, holds_congr e5 fun i j _ _ => by simp⟩
  unfold checkInto
  rw [e1, Option.bind_some, e2, Option.bind_some, e3, Option.map_some]

theorem step_spec {e : Env} (he : EnvOk e) {names : List String} (hn : names.Nodup)
    (hl : names.length = e.scene.length) {st : St} {σ : Spec} (h : Rel e.scene.length st σ) (o : Op)
    (hu : Usable σ o) (ha : Avoids e.scene.length σ o) :
    ∃ r st', step e names st o = some (r, st') ∧ Right e names σ o r ∧
      Rel e.scene.length st' (specStep e names σ o) := by
  cases o with
  | newSet =>
    refine ⟨_, _, rfl, trivial, h.a, by simp [specStep, h.len], fun s c hc => ?_⟩
    simp only [specStep, Spec.at, List.getD_eq_getElem?_getD]
    rcases Nat.lt_trichotomy s st.sets.length with h' | h' | h'
    · rw [List.getElem?_append_left h'] at hc
      rw [List.getElem?_append_left (by rw [← h.len]; exact h')]
      simpa [Spec.at, List.getD_eq_getElem?_getD] using h.t s c hc
    · subst h'
      rw [List.getElem?_append_right (le_refl _)] at hc
      simp at hc
      subst hc
      rw [h.len, List.getElem?_append_right (le_refl _)]
      simpa using holds_create e.scene.length
    · rw [List.getElem?_eq_none (by simp; omega)] at hc
      cases hc
  | getItem s k l =>
    obtain ⟨c, e1, h1⟩ := rel_get h hu
    simp only [step, e1, Option.bind_some]
    rcases pair_spec hn k l (fun i j => (clGet c i j).map fun b => (.bool b, st)) st with
      ⟨i, j, n1, n2, hp⟩ | ⟨hno, hp⟩
    · obtain ⟨b, g1, g2⟩ := h1.2.2 i j (hl ▸ named_lt n1) (hl ▸ named_lt n2)
      refine ⟨.bool b, st, by rw [hp, g1]; rfl, ⟨s(i, j), ⟨i, j, n1, n2, rfl⟩, g2⟩, h⟩
    · exact ⟨_, _, hp, hno, h⟩
  | setItem s k l b =>
    obtain ⟨c, e1, h1⟩ := rel_get h hu
    simp only [step, e1, Option.bind_some]
    rcases pair_spec hn k l (fun i j => (clSet c i j b).map fun c =>
      (.unit, { st with sets := st.sets.set s c })) st with ⟨i, j, n1, n2, hp⟩ | ⟨hno, hp⟩
    · obtain ⟨c', g1, g2⟩ := holds_update h1 b (hl ▸ named_lt n1) (hl ▸ named_lt n2)
      refine ⟨.unit, { st with sets := st.sets.set s c' }, by rw [hp, g1]; rfl,
        ⟨s(i, j), i, j, n1, n2, rfl⟩, ?_⟩
      refine rel_set h (holds_congr g2 fun x y _ _ => ?_)
      simp only [isPair_iff hn n1 n2]
    · refine ⟨_, _, hp, hno, ?_⟩
      have : Rel e.scene.length { st with sets := st.sets.set s c } (specStep e names σ (.setItem s k l b)) := by
        refine rel_set h (holds_congr h1 fun x y _ _ => ?_)
        rw [if_neg fun hq => hno ⟨_, hq⟩]
      have hs : st.sets.set s c = st.sets := by
        apply List.ext_getElem?
        intro x
        rw [List.getElem?_set]
        split_ifs with h1 h2
        · subst h1; exact e1.symm
        · subst h1; rw [List.getElem?_eq_none (by omega)]
        · rfl
      rw [hs] at this
      exact this
  | clear s =>
    obtain ⟨c, e1, h1⟩ := rel_get h hu
    obtain ⟨c', e2, h2⟩ := holds_clear h1
    refine ⟨.unit, { st with sets := st.sets.set s c' }, ?_, trivial, rel_set h h2⟩
    simp only [step, e1, e2, Option.bind_some, Option.map_some]
  | fill d s =>
    obtain ⟨c, e1, h1⟩ := rel_get h hu.1
    obtain ⟨c', e2, h2⟩ := rel_get h hu.2
    refine ⟨.unit, { st with sets := st.sets.set d (clFill c c') }, ?_, trivial,
      rel_set h (holds_congr (holds_fill h1 h2) fun i j hi hj => ?_)⟩
    · simp only [step, e1, e2, Option.bind_some, Option.map_some, if_neg ha.1]
    · exact ⟨.inr, fun o => o.elim (ha.2 i j hi hj) id⟩
  | allow k l =>
    simp only [step]
    rcases pair_spec hn k l (fun i j => (clSet st.allowed i j true).map fun a =>
      (.unit, { st with allowed := a })) st with ⟨i, j, n1, n2, hp⟩ | ⟨hno, hp⟩
    · obtain ⟨c', g1, g2⟩ := holds_set h.a (hl ▸ named_lt n1) (hl ▸ named_lt n2)
      refine ⟨.unit, { st with allowed := c' }, by rw [hp, g1]; rfl, ⟨s(i, j), i, j, n1, n2, rfl⟩, ?_, h.len, h.t⟩
      refine holds_congr g2 fun x y _ _ => ?_
      simp only [specStep, isPair_iff hn n1 n2]
    · refine ⟨_, _, hp, hno, holds_congr h.a fun x y _ _ => ?_, h.len, h.t⟩
      exact ⟨.inl, fun o => o.elim id fun hq => absurd ⟨_, hq⟩ hno⟩
  | allowSet s =>
    obtain ⟨c, e1, h1⟩ := rel_get h hu
    refine ⟨.unit, allowAll st c, by simp only [step, e1, Option.map_some], trivial,
      holds_congr (holds_fill h.a h1) fun i j hi hj => ?_, h.len, h.t⟩
    exact ⟨.inr, fun o => o.elim (ha i j hi hj) id⟩
  | allowConfig q =>
    obtain ⟨b, c, e1, -, h1⟩ := checkInto_spec he h.a (holds_create e.scene.length) q
    refine ⟨.unit, allowAll st c, by simp only [step, e1, Option.map_some], trivial,
      holds_congr (holds_fill h.a h1) fun i j hi hj => ?_, h.len, h.t⟩
    exact ⟨fun o => .inr o.2, fun o => o.elim (fun x => (ha i j hi hj x).elim) fun x => ⟨ha i j hi hj, x⟩⟩
  | check q s =>
    cases s with
    | none =>
      obtain ⟨d, e1, -, e3⟩ := (checkAt he h.a q).1
      exact ⟨.bool d.result, st, by simp only [step, e1, Option.map_some], e3, h⟩
    | some s =>
      obtain ⟨c, e1, h1⟩ := rel_get h hu
      obtain ⟨b, c', e2, h2, h3⟩ := checkInto_spec he h.a h1 q
      refine ⟨.bool b, { st with sets := st.sets.set s c' }, ?_, h2, rel_set h h3⟩
      simp only [step, e1, e2, Option.bind_some, Option.map_some]

/-! ## C149 -/

theorem run_spec {e : Env} (he : EnvOk e) {names : List String} (hn : names.Nodup)
    (hl : names.length = e.scene.length) : ∀ (os : List Op) (st : St) (σ : Spec),
    Rel e.scene.length st σ → Along e names Usable σ os → Along e names (Avoids e.scene.length) σ os →
    ∃ rs st', run e names os st = some (rs, st') ∧ AllRight e names σ os rs ∧
      Rel e.scene.length st' (specRun e names σ os) := by
  intro os
  induction os with
  | nil => intro st σ h _ _; exact ⟨[], st, rfl, trivial, h⟩
  | cons o os ih =>
    intro st σ h hu ha
    obtain ⟨r, st1, e1, r1, h1⟩ := step_spec he hn hl h o hu.1 ha.1
    obtain ⟨rs, st2, e2, r2, h2⟩ := ih st1 _ h1 hu.2 ha.2
    exact ⟨r :: rs, st2, by simp only [run, e1, e2, Option.bind_some, Option.map_some], ⟨r1, r2⟩, h2⟩

/-- C149: every answer in every history is the documented one, and the sets and the allowed pairs are as
documented afterwards. Partial: for histories that do not fill a set that has other pairs than the source, and
do not allow a set or a configuration when other pairs are allowed. -/
theorem C149_history_partial (e : Env) (he : EnvOk e) (names : List String) (hn : names.Nodup)
    (hl : names.length = e.scene.length) (sg : ClSet) (S : Sym2 Nat → Prop)
    (hS : Holds sg e.scene.length S) (os : List Op) (hu : Along e names Usable ⟨S, []⟩ os)
    (ha : Along e names (Avoids e.scene.length) ⟨S, []⟩ os) :
    ∃ rs st, run e names os (new sg) = some (rs, st) ∧ AllRight e names ⟨S, []⟩ os rs ∧
      Rel e.scene.length st (specRun e names ⟨S, []⟩ os) :=
  run_spec he hn hl os _ _ ⟨hS, rfl, fun s c h => by simp [new] at h⟩ hu ha

/-- C149 is violated by `allow_config`: no pair that was allowed before is allowed afterwards, in any scene, for
any configuration. -/
theorem C149_config_violates (e : Env) (he : EnvOk e) (names : List String) (st : St) (A : Sym2 Nat → Prop)
    (h : Holds st.allowed e.scene.length A) (q : Cfg) :
    ∃ st', step e names st (.allowConfig q) = some (.unit, st') ∧
      Holds st'.allowed e.scene.length (Clash e A q) ∧
      ∀ i j : Nat, i < e.scene.length → j < e.scene.length → A s(i, j) →
        clGet st'.allowed i j = some false := by
  obtain ⟨b, c, e1, -, h1⟩ := checkInto_spec he h (holds_create e.scene.length) q
  have h2 : Holds (allowAll st c).allowed e.scene.length (Clash e A q) := holds_fill h h1
  refine ⟨allowAll st c, by simp only [step, e1, Option.map_some], h2, fun i j hi hj hA => ?_⟩
  rcases holds_get h2 hi hj with ⟨h3, -⟩ | ⟨-, h3⟩
  · exact absurd hA h3.1
  · exact h3

/-- C149 is violated by allowing a configuration twice: where nothing was allowed and something overlaps, a
check in that configuration reports nothing after one call, and a collision after two. -/
theorem C149_twice_violates (e : Env) (he : EnvOk e) (names : List String) (sg : ClSet)
    (hS : Holds sg e.scene.length fun _ => False) (q : Cfg) (p : Sym2 Nat) (hp : Touch e q p) :
    (∃ st, run e names [.allowConfig q, .check q none] (new sg) = some ([.unit, .bool false], st)) ∧
    ∃ st, run e names [.allowConfig q, .allowConfig q, .check q none] (new sg) =
      some ([.unit, .unit, .bool true], st) := by
  obtain ⟨st1, e1, h1, -⟩ := C149_config_violates e he names (new sg) _ hS q
  obtain ⟨st2, e2, h2, -⟩ := C149_config_violates e he names st1 _ h1 q
  obtain ⟨d1, f1, -, g1⟩ := (checkAt he h1 q).1
  obtain ⟨d2, f2, -, g2⟩ := (checkAt he h2 q).1
  have r1 : d1.result = false := by
    rw [Bool.eq_false_iff, Ne, g1]
    rintro ⟨p, hn, ht⟩
    exact hn ⟨id, ht⟩
  have r2 : d2.result = true := g2.2 ⟨p, fun h => h.1 ⟨id, hp⟩, hp⟩
  have c1 : step e names st1 (.check q none) = some (.bool false, st1) := by
    simp only [step, f1, r1, Option.map_some]
  have c2 : step e names st2 (.check q none) = some (.bool true, st2) := by
    simp only [step, f2, r2, Option.map_some]
  constructor
  · exact ⟨st1, by simp only [run, e1, c1, Option.bind_some, Option.map_some]⟩
  · exact ⟨st2, by simp only [run, e1, e2, c2, Option.bind_some, Option.map_some]⟩

/-- C149 is violated by `fill` and `allow_set`: they replace, and the pairs that the source has not are lost. -/
theorem C149_replace_violates (e : Env) (names : List String) (st : St) (d s : Nat) (c c' : ClSet)
    (D S : Sym2 Nat → Prop) (h1 : st.sets[d]? = some c) (h2 : st.sets[s]? = some c')
    (hc : Holds c e.scene.length D) (hc' : Holds c' e.scene.length S) (A : Sym2 Nat → Prop)
    (ha : Holds st.allowed e.scene.length A) (hne : d ≠ s) :
    (∃ st' x, step e names st (.fill d s) = some (.unit, st') ∧ st'.sets[d]? = some x ∧
      Holds x e.scene.length S) ∧
    ∃ st', step e names st (.allowSet s) = some (.unit, st') ∧ Holds st'.allowed e.scene.length S := by
  refine ⟨⟨_, clFill c c', by simp only [step, h1, h2, if_neg hne, Option.bind_some, Option.map_some]; rfl, ?_,
    holds_fill hc hc'⟩, allowAll st c', by simp only [step, h2, Option.map_some], holds_fill ha hc'⟩
  simp only
  rw [List.getElem?_set_self]
  exact (List.getElem?_eq_some_iff.1 h1).1

/-- C149 is violated by filling a set from itself, which is undefined. -/
theorem C149_self_violates (e : Env) (names : List String) (st : St) (s : Nat) :
    step e names st (.fill s s) = none := if_pos rfl

theorem touching : Touch Mp.rail (Mp.cfg 0 1) s(0, 1) := (Mp.rail_touch _ _).2 ⟨rfl, by norm_num [Mp.cfg]⟩

/-- C149 is not vacuous: two balls; a check with a set, and frames by number and by name. -/
example : ∃ st, run Mp.rail ["a", "b"] [.newSet, .check (Mp.cfg 0 1) (some 0), .allowSet 0,
    .getItem 0 (.str "b") (.int 0)] (new (clCreate 2)) = some ([.unit, .bool true, .unit, .bool true], st) := by
  obtain ⟨rs, st, e1, e2, -⟩ := C149_history_partial Mp.rail Mp.rail_ok ["a", "b"] (by simp) rfl (clCreate 2)
    (fun _ => False) (holds_create 2) [.newSet, .check (Mp.cfg 0 1) (some 0), .allowSet 0,
      .getItem 0 (.str "b") (.int 0)]
    (by simp [Along, Usable, specStep])
    (by simp [Along, Avoids, Sub, specStep])
  have hp : ∀ p, IsPair ["a", "b"] (.str "b") (.int 0) p ↔ p = s(0, 1) := by
    intro p
    rw [isPair_iff (by simp) (show Named ["a", "b"] (.str "b") 1 from rfl)
      (show Named ["a", "b"] (.int 0) 0 from ⟨rfl, by simp⟩), Sym2.eq_swap]
  match rs, e2 with
  | [.unit, .bool a, .unit, .bool b], ⟨_, ha, _, ⟨p, h1, h2⟩, _⟩ =>
    rw [hp] at h1
    subst h1
    have : a = true := ha.2 ⟨_, id, touching⟩
    have : b = true := h2.2 ⟨id, touching⟩
    subst a b
    exact ⟨st, e1⟩
  | [.unit, .bool a, .unit, .exc], ⟨_, ha, _, h, _⟩ => exact absurd ⟨_, (hp _).2 rfl⟩ h

end Verif.PyCl
