import Verif.Model.PyLife
import Mathlib.Tactic.Linarith

/-!
# C131: lifetimes of the Python objects
-/

namespace Verif.PyLife

open Relation

/-! ## Spec -/

/-- every motion planner that Python keeps has its sub-scenegraph and scene graph kept, too. -/
def Kept (w : World) : Prop :=
  ∀ o b, Reach w o → w.objs o = some b → b.cls = .plan → ∀ p ∈ b.raw, Reach w p

/-- what the partial theorems leave out. -/
def Avoids (w : World) : Op → Prop
  -- one window in the whole run of the program
  | .win _ => w.win = none
  -- the window is kept while its thread runs, and the graph is not replaced under it
  | .frame => w.running = true → (∀ o, w.win = some o → Reach w o) ∧ w.pending = none
  | _ => True

/-- a condition on every step of a run. -/
def Along (P : World → Op → Prop) : World → List Op → Prop
  | _, [] => True
  | w, o :: os => P w o ∧ ∀ w', step w o = some w' → Along P w' os

/-! ## Proof -/

structure Inv (w : World) : Prop where
  old : ∀ o b, w.objs o = some b → o < w.next
  alive : ∀ o, Reach w o → ∃ b, w.objs o = some b
  c : ∀ o, w.c o = (w.objs o).isSome
  raw : ∀ o b, Reach w o → w.objs o = some b → b.cls ≠ .plan → (∀ g, w.pending ≠ some (o, g)) →
    ∀ p ∈ b.raw, ReflTransGen (Ref w) o p
  leaf : ∀ o b, w.objs o = some b → b.cls = .graph → b.refs = [] ∧ b.raw = []
  win : ∀ o b, w.objs o = some b → b.cls = .win → w.win = some o
  refsOld : ∀ a r, Ref w a r → r < w.next
  tgt : ∀ a r b, Ref w a r → w.objs r = some b → b.cls ≠ .win
  pend : ∀ o g, w.pending = some (o, g) → (∃ b, w.objs o = some b ∧ b.cls = .win ∧ b.refs = [g]) ∧
    ∃ b, w.objs g = some b ∧ b.cls = .graph

theorem inv_init : Inv init := by
  refine ⟨?_, ?_, ?_, ?_, ?_, ?_, ?_, ?_, ?_⟩
  · simp [init]
  · rintro o ⟨r, hr, -⟩
    simp [Root, init] at hr
  · simp [init]
  · intro o b _ h
    simp [init] at h
  · simp [init]
  · simp [init]
  · simp [init, Ref]
  · simp [init]
  · simp [init]

theorem Reach.trans {w : World} {a b : Nat} (h : Reach w a) (h' : ReflTransGen (Ref w) a b) : Reach w b := by
  obtain ⟨r, h1, h2⟩ := h
  exact ⟨r, h1, h2.trans h'⟩

theorem reach_var {w : World} {v o : Nat} (h : w.vars v = some o) : Reach w o := ⟨o, Or.inl ⟨v, h⟩, .refl⟩

theorem look_some {w : World} {v o : Nat} {k : Cls} (h : look w v k = some o) :
    w.vars v = some o ∧ ∃ b, w.objs o = some b ∧ b.cls = k := by
  simp only [look, Option.bind_eq_some_iff] at h
  obtain ⟨o', h1, b, h2, h3⟩ := h
  by_cases e : b.cls = k
  · rw [if_pos e] at h3
    cases h3
    exact ⟨h1, b, h2, e⟩
  · rw [if_neg e] at h3
    cases h3

/-- everything a method accesses is kept by Python. -/
theorem touch_reach {w : World} (h : Inv w) (hk : Kept w) (hp : w.pending = none) {a b : Nat} (ha : Reach w a)
    (ht : Touch w a b) : Reach w b := by
  induction ht with
  | refl => exact ha
  | tail _ hs ih =>
    rcases hs with hs | ⟨o, h1, h2⟩
    · exact ih.trans (.single hs)
    · by_cases e : o.cls = .plan
      · exact hk _ o ih h1 e _ h2
      · exact ih.trans (h.raw _ o ih h1 e (by rw [hp]; simp) _ h2)

theorem ok_reach {w : World} (h : Inv w) (hk : Kept w) (hp : w.pending = none) {as : List Nat}
    (ha : ∀ a ∈ as, Reach w a) : Ok w as := by
  intro a hm b ht
  obtain ⟨x, hx⟩ := h.alive b (touch_reach h hk hp (ha a hm) ht)
  rw [h.c, hx]; rfl

/-- a graph leads nowhere. -/
theorem touch_leaf {w : World} (h : Inv w) {g b : Nat} {x : Obj} (hg : w.objs g = some x) (hc : x.cls = .graph)
    (ht : Touch w g b) : b = g := by
  induction ht with
  | refl => rfl
  | tail _ hs ih =>
    subst ih
    obtain ⟨e1, e2⟩ := h.leaf _ x hg hc
    rcases hs with ⟨o, h1, h2⟩ | ⟨o, h1, h2⟩
    · rw [hg] at h1; cases h1; rw [e1] at h2; cases h2
    · rw [hg] at h1; cases h1; rw [e2] at h2; cases h2

/-- fewer roots. -/
theorem inv_roots {w w' : World} (h : Inv w) (h1 : w'.objs = w.objs) (h2 : w'.c = w.c) (h3 : w'.next = w.next)
    (h4 : w'.win = w.win) (h5 : w'.pending = w.pending) (h6 : ∀ v r, w'.vars v = some r → Reach w r) : Inv w' := by
  have hR : Ref w' = Ref w := by unfold Ref; rw [h1]
  have hr : ∀ o, Reach w' o → Reach w o := by
    rintro o ⟨r, (⟨v, e⟩ | ⟨x, g, e, e'⟩), hp⟩
    · rw [hR] at hp; exact (h6 v r e).trans hp
    · rw [hR] at hp; exact ⟨r, Or.inr ⟨x, g, by rw [← h5, e], e'⟩, hp⟩
  refine ⟨?_, ?_, ?_, ?_, ?_, ?_, ?_, ?_, ?_⟩
  · rw [h1, h3]; exact h.old
  · intro o ho; rw [h1]; exact h.alive o (hr o ho)
  · rw [h1, h2]; exact h.c
  · intro o b ho hb hc hq
    rw [hR]
    rw [h1] at hb
    rw [h5] at hq
    exact h.raw o b (hr o ho) hb hc hq
  · rw [h1]; exact h.leaf
  · rw [h1, h4]; exact h.win
  · rw [hR, h3]; exact h.refsOld
  · rw [hR, h1]; exact h.tgt
  · rw [h1, h5]; exact h.pend

/-- new objects. -/
theorem inv_add {w w' : World} (h : Inv w) (hp : w.pending = none) (hp' : w'.pending = none)
    (hn : w.next ≤ w'.next) (hobj : ∀ x, x < w.next → w'.objs x = w.objs x)
    (hc : ∀ x, w'.c x = (w'.objs x).isSome) (hwin : ∀ x b, w.objs x = some b → b.cls = .win → w'.win = some x)
    (hvar : ∀ v r, w'.vars v = some r → Reach w r ∨ ∃ b, w.next ≤ r ∧ w'.objs r = some b)
    (hnew : ∀ x b, w.next ≤ x → w'.objs x = some b → x < w'.next ∧
      (∀ r ∈ b.refs, (Reach w r ∨ ∃ b, w.next ≤ r ∧ w'.objs r = some b) ∧ ∀ b, w'.objs r = some b → b.cls ≠ .win) ∧
      (b.cls ≠ .plan → ∀ p ∈ b.raw, p ∈ b.refs ∨ ∃ r ∈ b.refs, Reach w r ∧ ReflTransGen (Ref w) r p) ∧
      (b.cls = .graph → b.refs = [] ∧ b.raw = []) ∧ (b.cls = .win → w'.win = some x)) : Inv w' := by
  have hlt : ∀ o, Reach w o → o < w.next := fun o ho => by
    obtain ⟨b, hb⟩ := h.alive o ho
    exact h.old o b hb
  have hr : ∀ o, Reach w' o → Reach w o ∨ ∃ b, w.next ≤ o ∧ w'.objs o = some b := by
    rintro o ⟨r, (⟨v, e⟩ | ⟨x, g, e, e'⟩), hpth⟩
    · induction hpth with
      | refl => exact hvar v r e
      | tail _ hs ih =>
        obtain ⟨b, h1, h2⟩ := hs
        rcases ih with ih | ⟨b', h3, h4⟩
        · rw [hobj _ (hlt _ ih)] at h1
          exact Or.inl (ih.trans (.single ⟨b, h1, h2⟩))
        · exact ((hnew _ b h3 h1).2.1 _ h2).1
    · rw [hp'] at e; cases e
  have hpath : ∀ a b, Reach w a → ReflTransGen (Ref w) a b → ReflTransGen (Ref w') a b := by
    intro a b ha hab
    induction hab with
    | refl => exact .refl
    | tail hs1 hs ih =>
      obtain ⟨x, h1, h2⟩ := hs
      exact ih.tail ⟨x, by rw [hobj _ (h.old _ x h1)]; exact h1, h2⟩
  refine ⟨fun o b hb => ?_, fun o ho => ?_, hc, fun o b ho hb hcl _ p hpm => ?_, fun o b hb hcl => ?_,
    fun o b hb hcl => ?_, ?_, ?_, fun o g e => by rw [hp'] at e; cases e⟩
  · by_cases e : o < w.next
    · omega
    · exact (hnew o b (by omega) hb).1
  · rcases hr o ho with h' | ⟨b, -, h'⟩
    · rw [hobj o (hlt o h')]; exact h.alive o h'
    · exact ⟨b, h'⟩
  · rcases hr o ho with h' | ⟨b', h1, -⟩
    · rw [hobj o (hlt o h')] at hb
      exact hpath _ _ h' (h.raw o b h' hb hcl (by rw [hp]; simp) p hpm)
    · rcases (hnew o b h1 hb).2.2.1 hcl p hpm with h2 | ⟨r, h2, h3, h4⟩
      · exact .single ⟨b, hb, h2⟩
      · exact .head ⟨b, hb, h2⟩ (hpath _ _ h3 h4)
  · by_cases e : o < w.next
    · rw [hobj o e] at hb; exact h.leaf o b hb hcl
    · exact (hnew o b (by omega) hb).2.2.2.1 hcl
  · by_cases e : o < w.next
    · rw [hobj o e] at hb; exact hwin o b hb hcl
    · exact (hnew o b (by omega) hb).2.2.2.2 hcl
  · rintro a r ⟨b, h1, h2⟩
    by_cases e : a < w.next
    · rw [hobj a e] at h1
      have := h.refsOld a r ⟨b, h1, h2⟩
      omega
    · rcases ((hnew a b (by omega) h1).2.1 r h2).1 with h3 | ⟨b', h3, h4⟩
      · have := hlt r h3
        omega
      · exact (hnew r b' h3 h4).1
  · rintro a r b' ⟨b, h1, h2⟩ hb'
    by_cases e : a < w.next
    · rw [hobj a e] at h1
      have := h.refsOld a r ⟨b, h1, h2⟩
      rw [hobj r this] at hb'
      exact h.tgt a r b' ⟨b, h1, h2⟩ hb'
    · exact ((hnew a b (by omega) h1).2.1 r h2).2 b' hb'

theorem inv_alloc {w : World} (h : Inv w) (hp : w.pending = none) (v : Nat) (b : Obj)
    (hr : ∀ r ∈ b.refs, Reach w r ∧ ∃ b, w.objs r = some b ∧ b.cls ≠ .win)
    (hw : b.cls ≠ .plan → ∀ p ∈ b.raw, p ∈ b.refs ∨ ∃ r ∈ b.refs, Reach w r ∧ ReflTransGen (Ref w) r p)
    (hl : b.cls = .graph → b.refs = [] ∧ b.raw = []) (hc : b.cls ≠ .win) : Inv (alloc w v b) := by
  refine inv_add h hp hp (Nat.le_succ _) (fun x hx => ?_) (fun x => ?_) h.win (fun u r e => ?_) fun x b' hx hb => ?_
  · exact if_neg (by omega)
  · simp only [alloc, setC, setVar, setObj]
    by_cases e : x = w.next
    · simp [e]
    · rw [if_neg e, if_neg e]; exact h.c x
  · simp only [alloc, setC, setVar, setObj] at e ⊢
    by_cases e' : u = v
    · rw [if_pos e'] at e
      cases e
      exact Or.inr ⟨b, le_refl _, if_pos rfl⟩
    · rw [if_neg e'] at e
      exact Or.inl (reach_var e)
  · have hx' : x = w.next := by
      by_contra e
      simp only [alloc, setC, setVar, setObj] at hb
      rw [if_neg e] at hb
      have := h.old x b' hb
      omega
    have hb' : b' = b := by
      simp only [alloc, setC, setVar, setObj] at hb
      rw [if_pos hx'] at hb
      exact (Option.some.inj hb).symm
    subst hb'
    refine ⟨?_, fun r hm => ⟨Or.inl (hr r hm).1, fun b2 hb2 => ?_⟩, hw, hl, fun e => absurd e hc⟩
    · rw [hx']
      exact Nat.lt_succ_self _
    · obtain ⟨-, b3, e1, e2⟩ := hr r hm
      have hlt := h.old r b3 e1
      simp only [alloc, setC, setVar, setObj] at hb2
      rw [if_neg (by omega), e1] at hb2
      cases hb2
      exact e2

theorem inv_allocDist {w : World} (h : Inv w) (hp : w.pending = none) (v k : Nat) (hk : Reach w k)
    (hk2 : ∃ b, w.objs k = some b ∧ b.cls ≠ .win) : Inv (allocDist w v k) := by
  have hobj : ∀ x, (allocDist w v k).objs x = if x = w.next + 2 then some ⟨.desc, [w.next], []⟩ else
      if x = w.next + 1 then some ⟨.desc, [w.next], []⟩ else
      if x = w.next then some ⟨.dist, [k, w.next + 1, w.next + 2], [k]⟩ else w.objs x := fun x => rfl
  have hc : ∀ x, (allocDist w v k).c x = if x = w.next + 2 then true else
      if x = w.next + 1 then true else if x = w.next then true else w.c x := fun x => rfl
  have hn : (allocDist w v k).next = w.next + 3 := rfl
  have h0 : (allocDist w v k).objs w.next = some ⟨.dist, [k, w.next + 1, w.next + 2], [k]⟩ := by
    rw [hobj, if_neg (by omega), if_neg (by omega), if_pos rfl]
  have h1 : (allocDist w v k).objs (w.next + 1) = some ⟨.desc, [w.next], []⟩ := by
    rw [hobj, if_neg (by omega), if_pos rfl]
  have h2 : (allocDist w v k).objs (w.next + 2) = some ⟨.desc, [w.next], []⟩ := by
    rw [hobj, if_pos rfl]
  refine inv_add h hp hp (by rw [hn]; omega) (fun x hx => ?_) (fun x => ?_) h.win (fun u r e => ?_) fun x b hx hb => ?_
  · rw [hobj, if_neg (by omega), if_neg (by omega), if_neg (by omega)]
  · rw [hobj, hc]
    split
    · rfl
    split
    · rfl
    split
    · rfl
    exact h.c x
  · by_cases e' : u = v
    · have : (allocDist w v k).vars u = some w.next := by
        simp only [allocDist, alloc, setC, setVar, setObj]
        rw [if_pos e']
      rw [this] at e
      cases e
      exact Or.inr ⟨_, le_refl _, h0⟩
    · have : (allocDist w v k).vars u = w.vars u := by
        simp only [allocDist, alloc, setC, setVar, setObj]
        rw [if_neg e']
      rw [this] at e
      exact Or.inl (reach_var e)
  · have hx' : x = w.next ∨ x = w.next + 1 ∨ x = w.next + 2 := by
      by_contra e
      rw [hobj, if_neg (by omega), if_neg (by omega), if_neg (by omega)] at hb
      have := h.old x b hb
      omega
    rw [hn]
    rcases hx' with rfl | rfl | rfl
    · rw [h0] at hb
      cases hb
      refine ⟨by omega, fun r hm => ?_, fun _ p hm => ?_, fun e => (by cases e), fun e => (by cases e)⟩
      · rcases List.mem_cons.1 hm with rfl | hm
        · refine ⟨Or.inl hk, fun b2 hb2 => ?_⟩
          obtain ⟨b3, e1, e2⟩ := hk2
          have hlt := h.old r b3 e1
          rw [hobj, if_neg (by omega), if_neg (by omega), if_neg (by omega), e1] at hb2
          cases hb2
          exact e2
        rcases List.mem_cons.1 hm with rfl | hm
        · exact ⟨Or.inr ⟨_, by omega, h1⟩, fun b2 hb2 => by rw [h1] at hb2; cases hb2; simp⟩
        rcases List.mem_cons.1 hm with rfl | hm
        · exact ⟨Or.inr ⟨_, by omega, h2⟩, fun b2 hb2 => by rw [h2] at hb2; cases hb2; simp⟩
        cases hm
      · rcases List.mem_cons.1 hm with rfl | hm
        · exact Or.inl (by simp)
        cases hm
    · rw [h1] at hb
      cases hb
      refine ⟨by omega, fun r hm => ?_, fun _ p hm => (by cases hm), fun e => (by cases e), fun e => (by cases e)⟩
      rcases List.mem_cons.1 hm with rfl | hm
      · exact ⟨Or.inr ⟨_, by omega, h0⟩, fun b2 hb2 => by rw [h0] at hb2; cases hb2; simp⟩
      cases hm
    · rw [h2] at hb
      cases hb
      refine ⟨by omega, fun r hm => ?_, fun _ p hm => (by cases hm), fun e => (by cases e), fun e => (by cases e)⟩
      rcases List.mem_cons.1 hm with rfl | hm
      · exact ⟨Or.inr ⟨_, by omega, h0⟩, fun b2 hb2 => by rw [h0] at hb2; cases hb2; simp⟩
      cases hm

theorem inv_make {w : World} (h : Inv w) (hk : Kept w) (hp : w.pending = none) (v a : Nat) (k : Cls) (b : Nat → Obj)
    (hb : ∀ o, look w a k = some o → (∀ r ∈ (b o).refs, Reach w r ∧ ∃ b, w.objs r = some b ∧ b.cls ≠ .win) ∧
      ((b o).cls ≠ .plan → ∀ p ∈ (b o).raw, p ∈ (b o).refs ∨ ∃ r ∈ (b o).refs, Reach w r ∧ ReflTransGen (Ref w) r p) ∧
      ((b o).cls = .graph → (b o).refs = [] ∧ (b o).raw = []) ∧ (b o).cls ≠ .win) :
    ∃ w', make w v a k b = some w' ∧ Inv w' := by
  unfold make
  cases e : look w a k with
  | none => exact ⟨w, rfl, h⟩
  | some o =>
    obtain ⟨h1, h2, h3, h4⟩ := hb o e
    refine ⟨_, if_pos (ok_reach h hk hp fun x hx => ?_), inv_alloc h hp v (b o) h1 h2 h3 h4⟩
    rw [List.mem_singleton.1 hx]
    exact reach_var (look_some e).1

/-- the pointers of a sub-scenegraph. -/
theorem rawOf_path {w : World} (h : Inv w) (hp : w.pending = none) {a s : Nat} (e : look w a .sub = some s) :
    Reach w s ∧ ∀ p ∈ rawOf w s, ReflTransGen (Ref w) s p := by
  obtain ⟨e1, b, e2, e3⟩ := look_some e
  refine ⟨reach_var e1, fun p hm => ?_⟩
  simp only [rawOf, e2] at hm
  exact h.raw s b (reach_var e1) e2 (by rw [e3]; decide) (by rw [hp]; simp) p hm

theorem inv_setSg {w : World} (h : Inv w) (hp : w.pending = none) {v u o g : Nat}
    (ho : w.vars v = some o ∧ ∃ b, w.objs o = some b ∧ b.cls = .win)
    (hg : w.vars u = some g ∧ ∃ b, w.objs g = some b ∧ b.cls = .graph) :
    Inv { setObj w o (some ⟨.win, [g], rawOf w o⟩) with pending := some (o, g) } := by
  obtain ⟨ho1, bo, ho2, ho3⟩ := ho
  obtain ⟨hg1, bg, hg2, hg3⟩ := hg
  have hne : g ≠ o := by
    rintro rfl
    rw [ho2] at hg2
    cases hg2
    rw [ho3] at hg3
    cases hg3
  generalize hw' : ({ setObj w o (some ⟨.win, [g], rawOf w o⟩) with pending := some (o, g) } : World) = w'
  have hobj : ∀ x, w'.objs x = if x = o then some ⟨.win, [g], rawOf w o⟩ else w.objs x := by
    intro x; rw [← hw']; rfl
  have hoo : w'.objs o = some ⟨.win, [g], rawOf w o⟩ := by rw [hobj, if_pos rfl]
  have hpend : w'.pending = some (o, g) := by rw [← hw']
  have hR : ∀ a b, Ref w' a b → (a = o ∧ b = g) ∨ (a ≠ o ∧ Ref w a b) := by
    rintro a b ⟨x, h1, h2⟩
    rw [hobj] at h1
    by_cases e : a = o
    · rw [if_pos e] at h1
      cases h1
      exact Or.inl ⟨e, List.mem_singleton.1 h2⟩
    · rw [if_neg e] at h1
      exact Or.inr ⟨e, x, h1, h2⟩
  have hreach : ∀ x, Reach w' x → Reach w x := by
    rintro x ⟨r, hr, hpth⟩
    have hr' : Reach w r := by
      rcases hr with ⟨v', e⟩ | ⟨o', g', e, e'⟩
      · exact reach_var (v := v') (by rw [← hw'] at e; exact e)
      · rw [hpend] at e
        cases e
        rcases e' with rfl | rfl
        · exact reach_var ho1
        · exact reach_var hg1
    clear hr
    induction hpth with
    | refl => exact hr'
    | tail _ hs ih =>
      rcases hR _ _ hs with ⟨-, rfl⟩ | ⟨-, hs⟩
      · exact reach_var hg1
      · exact ih.trans (.single hs)
  have hpath : ∀ a b, a ≠ o → ReflTransGen (Ref w) a b → ReflTransGen (Ref w') a b ∧ b ≠ o := by
    intro a b ha hab
    induction hab with
    | refl => exact ⟨.refl, ha⟩
    | tail _ hs ih =>
      refine ⟨ih.1.tail ?_, ?_⟩
      · obtain ⟨x, h1, h2⟩ := hs
        exact ⟨x, by rw [hobj, if_neg ih.2]; exact h1, h2⟩
      · rintro rfl
        exact h.tgt _ _ bo hs ho2 ho3
  refine ⟨fun x b hb => ?_, fun x hx => ?_, fun x => ?_, fun x b hx hb hc hq p hm => ?_, fun x b hb hc => ?_,
    fun x b hb hc => ?_, fun a r hr => ?_, fun a r b hr hb => ?_, fun o' g' e => ?_⟩
  · have hn : w'.next = w.next := by rw [← hw']; rfl
    rw [hn]
    rw [hobj] at hb
    by_cases e : x = o
    · rw [e]; exact h.old o bo ho2
    · rw [if_neg e] at hb; exact h.old x b hb
  · rw [hobj]
    by_cases e : x = o
    · exact ⟨_, if_pos e⟩
    · rw [if_neg e]; exact h.alive x (hreach x hx)
  · have hc' : w'.c = w.c := by rw [← hw']; rfl
    rw [hc', h.c, hobj]
    by_cases e : x = o
    · rw [if_pos e, e, ho2]; rfl
    · rw [if_neg e]
  · by_cases e : x = o
    · exact absurd (by rw [hpend, e]) (hq g)
    · rw [hobj, if_neg e] at hb
      exact (hpath x p e (h.raw x b (hreach x hx) hb hc (by rw [hp]; simp) p hm)).1
  · rw [hobj] at hb
    by_cases e : x = o
    · rw [if_pos e] at hb; cases hb; cases hc
    · rw [if_neg e] at hb; exact h.leaf x b hb hc
  · have hwin : w'.win = w.win := by rw [← hw']; rfl
    rw [hwin]
    rw [hobj] at hb
    by_cases e : x = o
    · rw [e]; exact h.win o bo ho2 ho3
    · rw [if_neg e] at hb; exact h.win x b hb hc
  · have hn : w'.next = w.next := by rw [← hw']; rfl
    rw [hn]
    rcases hR a r hr with ⟨-, rfl⟩ | ⟨-, hs⟩
    · exact h.old _ bg hg2
    · exact h.refsOld a r hs
  · rcases hR a r hr with ⟨-, rfl⟩ | ⟨-, hs⟩
    · rw [hobj, if_neg hne, hg2] at hb
      cases hb
      rw [hg3]; decide
    · rw [hobj] at hb
      by_cases e : r = o
      · subst e; exact absurd ho3 (h.tgt a r bo hs ho2)
      · rw [if_neg e] at hb; exact h.tgt a r b hs hb
  · rw [hpend] at e
    cases e
    exact ⟨⟨_, hoo, rfl, rfl⟩, bg, by rw [hobj, if_neg hne]; exact hg2, hg3⟩

theorem step_stmt {w : World} (h : Inv w) (hk : Kept w) (hp : w.pending = none) (op : Op) (ha : Avoids w op) :
    ∃ w', stmt w op = some w' ∧ Inv w' := by
  have one : ∀ {a : Nat} {k : Cls} {g : Nat}, look w a k = some g → ∀ r ∈ [g], Reach w r := by
    intro a k g e r hr
    rw [List.mem_singleton.1 hr]
    exact reach_var (look_some e).1
  have two : ∀ {a : Nat} {k : Cls} {g : Nat}, k ≠ .win → look w a k = some g →
      ∀ r ∈ [g], Reach w r ∧ ∃ b, w.objs r = some b ∧ b.cls ≠ .win := by
    intro a k g hk e r hr
    refine ⟨one e r hr, ?_⟩
    rw [List.mem_singleton.1 hr]
    obtain ⟨-, b, e1, e2⟩ := look_some e
    exact ⟨b, e1, e2 ▸ hk⟩
  cases op with
  | graph v => exact ⟨_, rfl, inv_alloc h hp v _ (by simp) (by simp) (by simp) (by simp)⟩
  | copy v s => exact inv_make h hk hp _ _ _ _ fun o e => ⟨by simp, by simp, by simp, by simp⟩
  | sub v g => exact inv_make h hk hp _ _ _ _ fun o e => ⟨two (by decide) e, fun _ p hm => Or.inl hm, by simp, by simp⟩
  | fk v g => exact inv_make h hk hp _ _ _ _ fun o e => ⟨two (by decide) e, fun _ p hm => Or.inl hm, by simp, by simp⟩
  | dk v s f =>
    simp only [stmt]
    cases e1 : look w s .sub with
    | none => exact ⟨w, rfl, h⟩
    | some s' =>
      cases e2 : look w f .fk with
      | none => exact ⟨w, rfl, h⟩
      | some f' =>
        refine ⟨_, rfl, inv_alloc h hp v _ (fun r hr => ?_) (by simp) (by simp) (by simp)⟩
        rcases List.mem_cons.1 hr with rfl | hr
        · exact two (by decide) e1 r (by simp)
        · exact two (by decide) e2 r hr
  | ik v s =>
    refine inv_make h hk hp _ _ _ _ fun o e => ⟨two (by decide) e, fun _ p hm => ?_, by simp, by simp⟩
    obtain ⟨h1, h2⟩ := rawOf_path h hp e
    rcases List.mem_cons.1 hm with rfl | hm
    · exact Or.inl (by simp)
    · exact Or.inr ⟨o, by simp, h1, h2 p hm⟩
  | clSet v g => exact inv_make h hk hp _ _ _ _ fun o e => ⟨two (by decide) e, by simp, by simp, by simp⟩
  | cl v g => exact inv_make h hk hp _ _ _ _ fun o e => ⟨two (by decide) e, fun _ p hm => Or.inl hm, by simp, by simp⟩
  | dist v k =>
    simp only [stmt]
    cases e : look w k .cl with
    | none => exact ⟨w, rfl, h⟩
    | some o => exact ⟨_, if_pos (ok_reach h hk hp (one e)), inv_allocDist h hp v o (one e o (by simp))
        (two (by decide) e o (by simp)).2⟩
  | win v =>
    have ha : w.win = none := ha
    simp only [stmt, ha]
    refine ⟨_, rfl, ?_⟩
    refine inv_add h hp hp (Nat.le_succ _) (fun x hx => ?_) (fun x => ?_) (fun x b hb hc => ?_) (fun u r e => ?_)
      fun x b' hx hb => ?_
    · exact if_neg (by omega)
    · simp only [alloc, setC, setVar, setObj]
      by_cases e : x = w.next
      · simp [e]
      · rw [if_neg e, if_neg e]; exact h.c x
    · have := h.win x b hb hc
      rw [ha] at this
      cases this
    · simp only [alloc, setC, setVar, setObj] at e ⊢
      by_cases e' : u = v
      · rw [if_pos e'] at e
        cases e
        exact Or.inr ⟨_, le_refl _, if_pos rfl⟩
      · rw [if_neg e'] at e
        exact Or.inl (reach_var e)
    · have hx' : x = w.next := by
        by_contra e
        simp only [alloc, setC, setVar, setObj] at hb
        rw [if_neg e] at hb
        have := h.old x b' hb
        omega
      simp only [alloc, setC, setVar, setObj] at hb
      rw [if_pos hx'] at hb
      cases hb
      subst hx'
      exact ⟨Nat.lt_succ_self _, by simp, by simp, by simp, fun _ => rfl⟩
  | plan v s =>
    exact inv_make h hk hp _ _ _ _ fun o e => ⟨by simp, by simp, by simp, by simp⟩
  | call v args =>
    refine ⟨w, if_pos (ok_reach h hk hp fun a hm => ?_), h⟩
    obtain ⟨u, -, hu⟩ := List.mem_filterMap.1 hm
    exact reach_var hu
  | get v x i =>
    simp only [stmt]
    cases e : (w.vars x).bind fun o => (w.objs o).bind fun b => b.refs[i]? with
    | none => exact ⟨w, rfl, h⟩
    | some p =>
      refine ⟨_, rfl, inv_roots h rfl rfl rfl rfl rfl fun u r hr => ?_⟩
      simp only [Option.bind_eq_some_iff] at e
      obtain ⟨o, e1, b, e2, e3⟩ := e
      simp only [setVar] at hr
      by_cases e' : u = v
      · rw [if_pos e'] at hr
        cases hr
        exact (reach_var e1).trans (.single ⟨b, e2, List.mem_of_getElem? e3⟩)
      · rw [if_neg e'] at hr
        exact reach_var hr
  | bind v x =>
    refine ⟨_, rfl, inv_roots h rfl rfl rfl rfl rfl fun u r hr => ?_⟩
    simp only [setVar] at hr
    by_cases e' : u = v
    · rw [if_pos e'] at hr; exact reach_var hr
    · rw [if_neg e'] at hr; exact reach_var hr
  | drop v =>
    refine ⟨_, rfl, inv_roots h rfl rfl rfl rfl rfl fun u r hr => ?_⟩
    simp only [setVar] at hr
    by_cases e' : u = v
    · rw [if_pos e'] at hr; cases hr
    · rw [if_neg e'] at hr; exact reach_var hr
  | setSg v g =>
    simp only [stmt]
    cases e1 : look w v .win with
    | none => exact ⟨w, rfl, h⟩
    | some o =>
      cases e2 : look w g .graph with
      | none => exact ⟨w, rfl, h⟩
      | some g' =>
        exact ⟨_, if_pos (ok_reach h hk hp (one e2)), inv_setSg h hp (look_some e1) (look_some e2)⟩
  | start v =>
    simp only [stmt]
    cases e : look w v .win with
    | none => exact ⟨w, rfl, h⟩
    | some o =>
      obtain ⟨e1, b, e2, e3⟩ := look_some e
      have := h.win o b e2 e3
      have hc : w.c o = true := by rw [h.c, e2]; rfl
      refine ⟨{ w with running := true }, by simp only [this, Option.elim_some, hc, if_true], ?_⟩
      exact inv_roots h rfl rfl rfl rfl rfl fun u r hr => reach_var hr
  | _ => exact ⟨w, rfl, h⟩

theorem inv_setSgEnd {w : World} (h : Inv w) {o g : Nat} (hp : w.pending = some (o, g)) :
    Inv { setObj w o (some ⟨.win, [g], [g]⟩) with pending := none } := by
  obtain ⟨⟨bo, ho2, ho3, ho4⟩, bg, hg2, hg3⟩ := h.pend o g hp
  generalize hw' : ({ setObj w o (some ⟨.win, [g], [g]⟩) with pending := none } : World) = w'
  have hobj : ∀ x, w'.objs x = if x = o then some ⟨.win, [g], [g]⟩ else w.objs x := by
    intro x; rw [← hw']; rfl
  have hpend : w'.pending = none := by rw [← hw']
  have hR : Ref w' = Ref w := by
    funext a b
    refine propext ⟨?_, ?_⟩
    · rintro ⟨x, h1, h2⟩
      rw [hobj] at h1
      by_cases e : a = o
      · rw [if_pos e] at h1
        cases h1
        exact ⟨bo, by rw [e]; exact ho2, by rw [ho4]; exact h2⟩
      · rw [if_neg e] at h1
        exact ⟨x, h1, h2⟩
    · rintro ⟨x, h1, h2⟩
      by_cases e : a = o
      · rw [e, ho2] at h1
        cases h1
        rw [ho4] at h2
        exact ⟨_, by rw [hobj, if_pos e], h2⟩
      · exact ⟨x, by rw [hobj, if_neg e]; exact h1, h2⟩
  have hreach : ∀ x, Reach w' x → Reach w x := by
    rintro x ⟨r, hr, hpth⟩
    rw [hR] at hpth
    rcases hr with ⟨v', e⟩ | ⟨o', g', e, e'⟩
    · exact ⟨r, Or.inl ⟨v', by rw [← hw'] at e; exact e⟩, hpth⟩
    · rw [hpend] at e; cases e
  refine ⟨fun x b hb => ?_, fun x hx => ?_, fun x => ?_, fun x b hx hb hc hq p hm => ?_, fun x b hb hc => ?_,
    fun x b hb hc => ?_, fun a r hr => ?_, fun a r b hr hb => ?_, fun o' g' e => by rw [hpend] at e; cases e⟩
  · have hn : w'.next = w.next := by rw [← hw']; rfl
    rw [hn]
    rw [hobj] at hb
    by_cases e : x = o
    · rw [e]; exact h.old o bo ho2
    · rw [if_neg e] at hb; exact h.old x b hb
  · rw [hobj]
    by_cases e : x = o
    · exact ⟨_, if_pos e⟩
    · rw [if_neg e]; exact h.alive x (hreach x hx)
  · have hc' : w'.c = w.c := by rw [← hw']; rfl
    rw [hc', h.c, hobj]
    by_cases e : x = o
    · rw [if_pos e, e, ho2]; rfl
    · rw [if_neg e]
  · by_cases e : x = o
    · rw [hobj, if_pos e] at hb
      cases hb
      refine .single ⟨_, by rw [hobj, if_pos e], hm⟩
    · rw [hobj, if_neg e] at hb
      rw [hR]
      exact h.raw x b (hreach x hx) hb hc (by rw [hp]; rintro g' e'; cases e'; exact e rfl) p hm
  · rw [hobj] at hb
    by_cases e : x = o
    · rw [if_pos e] at hb; cases hb; cases hc
    · rw [if_neg e] at hb; exact h.leaf x b hb hc
  · have hwin : w'.win = w.win := by rw [← hw']; rfl
    rw [hwin]
    rw [hobj] at hb
    by_cases e : x = o
    · rw [e]; exact h.win o bo ho2 ho3
    · rw [if_neg e] at hb; exact h.win x b hb hc
  · have hn : w'.next = w.next := by rw [← hw']; rfl
    rw [hn]
    rw [hR] at hr
    exact h.refsOld a r hr
  · rw [hR] at hr
    rw [hobj] at hb
    by_cases e : r = o
    · subst e; exact absurd ho3 (h.tgt a r bo hr ho2)
    · rw [if_neg e] at hb; exact h.tgt a r b hr hb

/-- finalizing what cannot be reached. -/
theorem inv_collect {w : World} (h : Inv w) {o : Nat} (ho : ¬ Reach w o) : Inv (setC (setObj w o none) o false) := by
  generalize hw' : setC (setObj w o none) o false = w'
  have hobj : ∀ x, w'.objs x = if x = o then none else w.objs x := by
    intro x; rw [← hw']; rfl
  have hsome : ∀ x b, w'.objs x = some b → x ≠ o ∧ w.objs x = some b := by
    intro x b hb
    rw [hobj] at hb
    by_cases e : x = o
    · rw [if_pos e] at hb; cases hb
    · rw [if_neg e] at hb; exact ⟨e, hb⟩
  have hR : ∀ a b, Ref w' a b → Ref w a b := by
    rintro a b ⟨x, h1, h2⟩
    exact ⟨x, (hsome a x h1).2, h2⟩
  have hroot : ∀ r, Root w' r → Root w r := by
    intro r hr; rw [← hw'] at hr; exact hr
  have hreach : ∀ x, Reach w' x → Reach w x := by
    rintro x ⟨r, hr, hpth⟩
    exact ⟨r, hroot r hr, ReflTransGen.mono hR _ _ hpth⟩
  have hpath : ∀ a b, Reach w a → ReflTransGen (Ref w) a b → ReflTransGen (Ref w') a b := by
    intro a b ha hab
    induction hab with
    | refl => exact .refl
    | tail h1 hs ih =>
      obtain ⟨x, h2, h3⟩ := hs
      refine ih.tail ⟨x, ?_, h3⟩
      rw [hobj, if_neg]
      · exact h2
      · rintro rfl
        exact ho (ha.trans h1)
  have hpend : w'.pending = w.pending := by rw [← hw']; rfl
  have hn : w'.next = w.next := by rw [← hw']; rfl
  refine ⟨fun x b hb => ?_, fun x hx => ?_, fun x => ?_, fun x b hx hb hc hq p hm => ?_, fun x b hb hc => ?_,
    fun x b hb hc => ?_, fun a r hr => ?_, fun a r b hr hb => ?_, fun o' g' e => ?_⟩
  · rw [hn]; exact h.old x b (hsome x b hb).2
  · have hx' := hreach x hx
    rw [hobj, if_neg (by rintro rfl; exact ho hx')]
    exact h.alive x hx'
  · have hc' : w'.c x = if x = o then false else w.c x := by rw [← hw']; rfl
    rw [hc', hobj]
    by_cases e : x = o
    · rw [if_pos e, if_pos e]; rfl
    · rw [if_neg e, if_neg e]; exact h.c x
  · rw [hpend] at hq
    exact hpath x p (hreach x hx) (h.raw x b (hreach x hx) (hsome x b hb).2 hc hq p hm)
  · exact h.leaf x b (hsome x b hb).2 hc
  · have hwin : w'.win = w.win := by rw [← hw']; rfl
    rw [hwin]; exact h.win x b (hsome x b hb).2 hc
  · rw [hn]; exact h.refsOld a r (hR a r hr)
  · exact h.tgt a r b (hR a r hr) (hsome r b hb).2
  · rw [hpend] at e
    obtain ⟨⟨bo, h1, h2, h3⟩, bg, h4, h5⟩ := h.pend o' g' e
    have r1 : Reach w o' := ⟨o', Or.inr ⟨o', g', e, Or.inl rfl⟩, .refl⟩
    have r2 : Reach w g' := ⟨g', Or.inr ⟨o', g', e, Or.inr rfl⟩, .refl⟩
    exact ⟨⟨bo, by rw [hobj, if_neg (by rintro rfl; exact ho r1)]; exact h1, h2, h3⟩,
      bg, by rw [hobj, if_neg (by rintro rfl; exact ho r2)]; exact h4, h5⟩

theorem step_inv {w : World} (h : Inv w) (hk : Kept w) (op : Op) (ha : Avoids w op) :
    ∃ w', step w op = some w' ∧ Inv w' := by
  have other : ∀ op', Avoids w op' → ∃ w', (if w.pending = none then stmt w op' else some w) = some w' ∧ Inv w' := by
    intro op' ha'
    by_cases e : w.pending = none
    · rw [if_pos e]; exact step_stmt h hk e op' ha'
    · rw [if_neg e]; exact ⟨w, rfl, h⟩
  cases op with
  | frame =>
    simp only [step]
    by_cases e : w.running = true
    · rw [if_pos e]
      obtain ⟨h1, h2⟩ := ha e
      cases hw : w.win with
      | none => exact ⟨w, rfl, h⟩
      | some o =>
        refine ⟨w, if_pos (ok_reach h hk h2 fun a hm => ?_), h⟩
        rw [List.mem_singleton.1 hm]
        exact h1 o hw
    · rw [if_neg e]; exact ⟨w, rfl, h⟩
  | done => exact ⟨_, rfl, inv_roots h rfl rfl rfl rfl rfl fun u r hr => reach_var hr⟩
  | collect o =>
    simp only [step]
    cases hb : w.objs o with
    | none => exact ⟨w, rfl, h⟩
    | some b =>
      by_cases e : Reach w o
      · exact ⟨w, if_pos e, h⟩
      · exact ⟨setC (setObj w o none) o false, (if_neg e).trans (if_pos (by rw [h.c, hb]; rfl)), inv_collect h e⟩
  | setSgEnd =>
    simp only [step]
    cases hp : w.pending with
    | none => exact ⟨w, rfl, h⟩
    | some p =>
      obtain ⟨o, g⟩ := p
      obtain ⟨⟨bo, h1, h2, h3⟩, bg, h4, h5⟩ := h.pend o g hp
      refine ⟨_, if_pos ⟨by rw [h.c, h1]; rfl, fun a hm b ht => ?_⟩, inv_setSgEnd h hp⟩
      rw [List.mem_singleton.1 hm] at ht
      rw [touch_leaf h h4 h5 ht, h.c, h4]; rfl
  | _ => exact other _ ha

theorem run_inv (os : List Op) : ∀ {w : World}, Inv w → Along (fun w o => Kept w ∧ Avoids w o) w os →
    ∃ w', run w os = some w' ∧ Inv w' := by
  induction os with
  | nil => intro w h _; exact ⟨w, rfl, h⟩
  | cons o os ih =>
    rintro w h ⟨⟨h1, h2⟩, h3⟩
    obtain ⟨w1, e1, e2⟩ := step_inv h h1 o h2
    obtain ⟨w2, f1, f2⟩ := ih e2 (h3 w1 e1)
    exact ⟨w2, by simp only [run, e1, Option.bind_some, f1], f2⟩

/-! ## Properties -/

/-- **C131 (safety)** (partial: sub-scenegraphs of motion planners are kept by the program; there is one window, which
is kept while its thread runs, and whose graph is not replaced then). No C function, also of the display thread, ever
accesses an object that was destroyed, and no object is destroyed twice. -/
theorem C131_safe_partial (os : List Op) (h : Along (fun w o => Kept w ∧ Avoids w o) init os) :
    ∃ w, run init os = some w := by
  obtain ⟨w, e, -⟩ := run_inv os inv_init h
  exact ⟨w, e⟩

/-- **C131 (lifetime)** (partial, as above). The C object is there exactly as long as its Python object is not
finalized; whatever the program can reach is not finalized. -/
theorem C131_lifetime_partial (os : List Op) (h : Along (fun w o => Kept w ∧ Avoids w o) init os) {w : World}
    (hw : run init os = some w) :
    (∀ o, w.c o = true ↔ ∃ b, w.objs o = some b) ∧ ∀ o, Reach w o → w.c o = true := by
  obtain ⟨w', e, hi⟩ := run_inv os inv_init h
  rw [hw] at e
  cases e
  have h1 : ∀ o, w.c o = true ↔ ∃ b, w.objs o = some b := fun o => by rw [hi.c, Option.isSome_iff_exists]
  exact ⟨h1, fun o ho => (h1 o).2 (hi.alive o ho)⟩

theorem collect_all (l : List Nat) : ∀ {w : World}, Inv w → (∀ r, ¬ Root w r) →
    ∃ w', run w (l.map .collect) = some w' ∧ Inv w' ∧ (∀ r, ¬ Root w' r) ∧
      ∀ o, w'.objs o = if o ∈ l then none else w.objs o := by
  induction l with
  | nil => intro w h hr; exact ⟨w, rfl, h, hr, by simp⟩
  | cons a l ih =>
    intro w h hr
    have ha : ¬ Reach w a := by rintro ⟨r, h1, -⟩; exact hr r h1
    cases hb : w.objs a with
    | none =>
      obtain ⟨w', e1, e2, e3, e4⟩ := ih h hr
      refine ⟨w', by simp only [List.map_cons, run, step, hb, Option.bind_some, e1], e2, e3, fun o => ?_⟩
      rw [e4]
      by_cases e : o = a
      · simp [e, hb]
      · simp [e]
    | some b =>
      have hs : step w (.collect a) = some (setC (setObj w a none) a false) := by
        simp only [step, hb]
        exact (if_neg ha).trans (if_pos (by rw [h.c, hb]; rfl))
      obtain ⟨w', e1, e2, e3, e4⟩ := ih (w := setC (setObj w a none) a false) (inv_collect h ha) hr
      refine ⟨w', by simp only [List.map_cons, run, hs, Option.bind_some, e1], e2, e3, fun o => ?_⟩
      rw [e4]
      by_cases e : o = a
      · simp [e, setC, setObj]
      · simp [e, setC, setObj]

/-- **C131 (release)** (partial, as above). When the program has dropped all variables and Python finalizes what is
left, all objects of C have been destroyed. -/
theorem C131_release_partial (os : List Op) (h : Along (fun w o => Kept w ∧ Avoids w o) init os) {w : World}
    (hw : run init os = some w) (hv : ∀ v, w.vars v = none) (hp : w.pending = none) :
    ∃ w', run w ((List.range w.next).map .collect) = some w' ∧ ∀ o, w'.c o = false := by
  obtain ⟨w0, e, hi⟩ := run_inv os inv_init h
  rw [hw] at e
  cases e
  obtain ⟨w', e1, e2, -, e4⟩ := collect_all (List.range w.next) hi (by
    rintro r (⟨v, e⟩ | ⟨o, g, e, -⟩)
    · rw [hv v] at e; cases e
    · rw [hp] at e; cases e)
  refine ⟨w', e1, fun o => ?_⟩
  rw [e2.c, e4]
  by_cases ho : o ∈ List.range w.next
  · rw [if_pos ho]; rfl
  · rw [if_neg ho]
    cases hb : w.objs o with
    | none => rfl
    | some b => exact absurd (List.mem_range.2 (hi.old o b hb)) ho

/-! ### What the code does not do -/

theorem guard_some {w w' x : World} {as : List Nat} (h : guard w as w' = some x) : x = w' ∧ Ok w as := by
  unfold guard at h
  by_cases e : Ok w as
  · rw [if_pos e] at h; exact ⟨(Option.some.inj h).symm, e⟩
  · rw [if_neg e] at h; cases h

theorem not_reach {w : World} {o : Nat} (S : Nat → Prop) (h1 : ∀ v r, w.vars v = some r → S r)
    (hp : ∀ x g, w.pending = some (x, g) → S x ∧ S g)
    (h2 : ∀ a b, S a → w.objs a = some b → ∀ r ∈ b.refs, S r) (h3 : ¬ S o) : ¬ Reach w o := by
  rintro ⟨r, hr, hpth⟩
  have hr' : S r := by
    rcases hr with ⟨v, e⟩ | ⟨x, g, e, rfl | rfl⟩
    · exact h1 v r e
    · exact (hp _ _ e).1
    · exact (hp _ _ e).2
  apply h3
  clear hr h3
  induction hpth with
  | refl => exact hr'
  | tail _ hs ih =>
    obtain ⟨b, e1, e2⟩ := hs
    exact h2 _ b ih e1 _ e2

/-- no window and no motion planner is made. -/
def Simple : Op → Prop
  | .plan _ _ => False
  | .win _ => False
  | _ => True

structure NoWin (w : World) : Prop where
  cls : ∀ o b, w.objs o = some b → b.cls ≠ .plan ∧ b.cls ≠ .win
  win : w.win = none
  pending : w.pending = none

theorem noWin_alloc {w : World} (h : NoWin w) (v : Nat) (b : Obj) (hb : b.cls ≠ .plan ∧ b.cls ≠ .win) :
    NoWin (alloc w v b) := by
  refine ⟨fun o b' e => ?_, h.win, h.pending⟩
  simp only [alloc, setC, setVar, setObj] at e
  split_ifs at e
  · cases e; exact hb
  · exact h.cls o b' e

theorem noWin_make {w w' : World} (h : NoWin w) {v a : Nat} {k : Cls} {b : Nat → Obj}
    (hb : ∀ o, (b o).cls ≠ .plan ∧ (b o).cls ≠ .win) (e : make w v a k b = some w') : NoWin w' := by
  simp only [make] at e
  split at e
  · obtain ⟨rfl, -⟩ := guard_some e
    exact noWin_alloc h _ _ (hb _)
  · cases e; exact h

theorem noWin_setVar {w : World} (h : NoWin w) (v : Nat) (o : Option Nat) : NoWin (setVar w v o) :=
  ⟨h.cls, h.win, h.pending⟩

theorem noWin_erase {w : World} (h : NoWin w) (o : Nat) : NoWin (setObj w o none) := by
  refine ⟨fun x b' e => ?_, h.win, h.pending⟩
  simp only [setObj] at e
  split_ifs at e
  exact h.cls x b' e

theorem noWin_look {w : World} (h : NoWin w) (v : Nat) : look w v .win = none := by
  rcases e : look w v .win with _ | o
  · rfl
  · obtain ⟨-, b, h1, h2⟩ := look_some e
    exact absurd h2 (h.cls o b h1).2

theorem noWin_stmt {w w' : World} (h : NoWin w) {op : Op} (hs : Simple op) (e : stmt w op = some w') : NoWin w' := by
  cases op with
  | graph v => cases e; exact noWin_alloc h _ _ (by simp)
  | copy v s => exact noWin_make h (by simp) e
  | sub v g => exact noWin_make h (by simp) e
  | fk v g => exact noWin_make h (by simp) e
  | ik v s => exact noWin_make h (by simp) e
  | clSet v s => exact noWin_make h (by simp) e
  | cl v s => exact noWin_make h (by simp) e
  | win v => exact hs.elim
  | plan v s => exact hs.elim
  | dk v s f =>
    simp only [stmt] at e
    split at e
    · cases e; exact noWin_alloc h _ _ (by simp)
    · cases e; exact h
  | dist v k =>
    simp only [stmt] at e
    split at e
    · obtain ⟨rfl, -⟩ := guard_some e
      refine ⟨fun o b' e => ?_, h.win, h.pending⟩
      simp only [allocDist, alloc, setC, setVar, setObj] at e
      split_ifs at e
      · cases e; simp
      · cases e; simp
      · cases e; simp
      · exact h.cls o b' e
    · cases e; exact h
  | call v args =>
    obtain ⟨rfl, -⟩ := guard_some e
    exact h
  | get v x i =>
    simp only [stmt] at e
    split at e <;> cases e
    · exact noWin_setVar h _ _
    · exact h
  | bind v x => cases e; exact noWin_setVar h _ _
  | drop v => cases e; exact noWin_setVar h _ _
  | setSg v g =>
    simp only [stmt, noWin_look h] at e
    cases e; exact h
  | start v =>
    simp only [stmt, noWin_look h] at e
    cases e; exact h
  | setSgEnd => cases e; exact h
  | frame => cases e; exact h
  | done => cases e; exact h
  | collect o => cases e; exact h

theorem noWin_step {w w' : World} (h : NoWin w) {op : Op} (hs : Simple op) (e : step w op = some w') : NoWin w' := by
  by_cases hst : step w op = stmt w op
  · exact noWin_stmt h hs (hst ▸ e)
  cases op with
  | frame =>
    simp only [step, h.win, Option.elim_none, ite_self] at e
    cases e; exact h
  | done => cases e; exact ⟨h.cls, h.win, h.pending⟩
  | setSgEnd =>
    simp only [step, h.pending] at e
    cases e; exact h
  | collect o =>
    simp only [step] at e
    split at e
    · cases e; exact h
    · split_ifs at e <;> cases e
      · exact h
      · exact ⟨(noWin_erase h o).cls, h.win, h.pending⟩
      · exact noWin_erase h o
  | _ => exact absurd (by simp only [step]; rw [if_pos h.pending]) hst

theorem noWin_along (os : List Op) : ∀ {w : World}, NoWin w → (∀ op ∈ os, Simple op) →
    Along (fun w o => Kept w ∧ Avoids w o) w os := by
  induction os with
  | nil => intro _ _ _; trivial
  | cons op os ih =>
    intro w h hs
    refine ⟨⟨fun o b _ hb e => absurd e (h.cls o b hb).1, ?_⟩, fun w' e =>
      ih (noWin_step h (hs op (by simp)) e) fun x hx => hs x (by simp [hx])⟩
    cases op with
    | win v => exact h.win
    | frame => exact fun _ => ⟨fun o e => by (rw [h.win] at e; cases e), h.pending⟩
    | _ => trivial

/-- **C131 (kinematics and collisions)** (partial: no `SceneWin` and no `MotionPlan`). Whatever the program does with
scene graphs, sub-scenegraphs, kinematics and collision objects, it accesses nothing that is destroyed, and at the
end everything can be destroyed. -/
theorem C131_simple_partial (os : List Op) (hs : ∀ op ∈ os, Simple op) :
    ∃ w, run init os = some w ∧ ((∀ v, w.vars v = none) →
      ∃ w', run w ((List.range w.next).map .collect) = some w' ∧ ∀ o, w'.c o = false) := by
  have hn : NoWin init := ⟨by simp [init], rfl, rfl⟩
  have ha := noWin_along os hn hs
  obtain ⟨w, e⟩ := C131_safe_partial os ha
  refine ⟨w, e, fun hv => C131_release_partial os ha e hv ?_⟩
  have : ∀ (os : List Op) {w w' : World}, NoWin w → (∀ op ∈ os, Simple op) → run w os = some w' → NoWin w' := by
    intro os
    induction os with
    | nil => intro w w' h _ e; cases e; exact h
    | cons op os ih =>
      intro w w' h hs e
      rw [run, Option.bind_eq_some_iff] at e
      obtain ⟨w1, e1, e2⟩ := e
      exact ih (noWin_step h (hs op (by simp)) e1) (fun x hx => hs x (by simp [hx])) e2
  exact (this os hn hs e).pending

/-- a program of the kind: the graph, the sub-scenegraph and the collision object are dropped while the objects made
from them are in use. -/
example : ∃ w, run init [.graph 0, .sub 1 0, .fk 2 0, .dk 3 1 2, .ik 4 1, .cl 5 0, .dist 6 5, .drop 0, .drop 1, .drop 2,
    .drop 5, .collect 0, .collect 1, .collect 2, .collect 5, .call 3 [4], .call 6 [], .get 7 6 1, .drop 6, .collect 6,
    .call 7 [], .drop 7, .drop 3, .drop 4, .collect 7, .collect 6, .collect 0, .collect 1] = some w :=
  (C131_simple_partial _ (by
    intro op hop
    simp only [List.mem_cons, List.not_mem_nil, or_false] at hop
    rcases hop with rfl | rfl | rfl | rfl | rfl | rfl | rfl | rfl | rfl | rfl | rfl | rfl | rfl | rfl | rfl | rfl | rfl |
      rfl | rfl | rfl | rfl | rfl | rfl | rfl | rfl | rfl | rfl | rfl <;> trivial)).imp fun _ h => h.1

theorem run_cons {w x : World} {o : Op} {os : List Op} (h : run w (o :: os) = some x) :
    ∃ w', step w o = some w' ∧ run w' os = some x := by
  rw [run, Option.bind_eq_some_iff] at h
  exact h

theorem collect_dead {w : World} {o : Nat} {b : Obj} (ho : w.objs o = some b) (hc : w.c o = true)
    (hr : ¬ Reach w o) : step w (.collect o) = some (setC (setObj w o none) o false) := by
  simp only [step, ho]
  exact (if_neg hr).trans (if_pos hc)

/-- an object of C that is pointed to by another in use is destroyed first. -/
theorem dead_call {w : World} {o v x : Nat} {b b' : Obj} (hp : w.pending = none) (hv : w.vars v = some x)
    (hx : w.objs x = some b) (hm : o ∈ b.raw) (hxo : x ≠ o) (ho : w.objs o = some b') (hc : w.c o = true)
    (hr : ¬ Reach w o) : run w [.collect o, .call v []] = none := by
  rw [run, collect_dead ho hc hr, Option.bind_some]
  simp only [run, step]
  rw [if_pos (by exact hp)]
  simp only [stmt]
  rw [guard, if_neg]
  · rfl
  · intro h
    have := h x (by simp [setC, setObj, hv]) o (.single (Or.inr ⟨b, by simp [setC, setObj, hxo, hx], hm⟩))
    simp [setC] at this

/-- the same in the display thread. -/
theorem dead_frame {w : World} {o x : Nat} {b b' : Obj} (hw : w.win = some x) (hrun : w.running = true)
    (hx : w.objs x = some b) (hm : o ∈ b.raw ∨ o = x) (ho : w.objs o = some b') (hc : w.c o = true)
    (hr : ¬ Reach w o) : run w [.collect o, .frame] = none := by
  have h1 : (setC (setObj w o none) o false).running = true := hrun
  have h2 : (setC (setObj w o none) o false).win = some x := hw
  rw [run, collect_dead ho hc hr, Option.bind_some]
  simp only [run, step]
  rw [if_pos h1, h2]
  simp only [Option.elim_some]
  rw [guard, if_neg]
  · rfl
  · intro h
    by_cases e : o = x
    · have := h x (by simp) o (by rw [e]; exact .refl)
      simp [setC] at this
    · have hm : o ∈ b.raw := hm.resolve_right e
      have := h x (by simp) o (.single (Or.inr ⟨b, by simp [setC, setObj, Ne.symm (show o ≠ x from e), hx], hm⟩))
      simp [setC] at this

/-- `m = MotionPlan(sg[a:b])`: the planner does not keep the sub-scenegraph, which is destroyed before the planner is
used for the first time. -/
theorem C131_violates_plan :
    run init [.graph 0, .sub 1 0, .plan 2 1, .drop 1, .collect 1, .call 2 []] = none := by
  rcases h : run init [.graph 0, .sub 1 0, .plan 2 1, .drop 1, .collect 1, .call 2 []] with _ | w
  · rfl
  exfalso
  obtain ⟨w1, h1, h⟩ := run_cons h
  simp [step, stmt, init, alloc, setC, setVar, setObj] at h1
  subst h1
  obtain ⟨w2, h2, h⟩ := run_cons h
  simp [step, stmt, make, look] at h2
  obtain ⟨rfl, -⟩ := guard_some h2
  obtain ⟨w3, h3, h⟩ := run_cons h
  simp [step, stmt, make, look, alloc, setC, setVar, setObj, rawOf] at h3
  obtain ⟨rfl, -⟩ := guard_some h3
  obtain ⟨w4, h4, h⟩ := run_cons h
  simp [step, stmt, setVar] at h4
  subst h4
  rw [dead_call rfl (x := 2) (b := ⟨.plan, [], [1, 0]⟩) (b' := ⟨.sub, [0], [0]⟩) (by simp) (by simp) (by simp)
    (by simp) (by simp) (by simp)] at h
  · cases h
  · refine not_reach (fun x => x = 0 ∨ x = 2) (fun v r => ?_) (by simp) (fun a b ha => ?_) (by simp)
    · dsimp only
      split_ifs <;> simp <;> omega
    · rcases ha with rfl | rfl
      · simp only [OfNat.zero_ne_ofNat, if_false, zero_ne_one, if_true]
        rintro ⟨⟩ r hr
        cases hr
      · simp only [if_true]
        rintro ⟨⟩ r hr
        cases hr

/-- `w = SceneWin(…, scenegraph=…)` is dropped while the window is shown: the display thread goes on with the window
that was destroyed. -/
theorem C131_violates_window_dropped :
    run init [.win 0, .start 0, .drop 0, .collect 0, .frame] = none := by
  rcases h : run init [.win 0, .start 0, .drop 0, .collect 0, .frame] with _ | w
  · rfl
  exfalso
  obtain ⟨w1, h1, h⟩ := run_cons h
  simp [step, stmt, init, alloc, setC, setVar, setObj] at h1
  subst h1
  obtain ⟨w2, h2, h⟩ := run_cons h
  simp [step, stmt, look] at h2
  subst h2
  obtain ⟨w3, h3, h⟩ := run_cons h
  simp [step, stmt, setVar] at h3
  subst h3
  rw [dead_frame (x := 0) (b := ⟨.win, [], []⟩) (b' := ⟨.win, [], []⟩) rfl rfl (by simp) (by simp) (by simp)
    (by simp)] at h
  · cases h
  · refine not_reach (fun x => False) (fun v r => ?_) (by simp) (by simp) (by simp)
    dsimp only
    split_ifs <;> simp

/-- The graph of a shown window is replaced: the display thread draws the old one after it was destroyed. -/
theorem C131_violates_replace :
    run init [.graph 0, .win 1, .setSg 1 0, .setSgEnd, .start 1, .graph 0, .setSg 1 0, .collect 0, .frame] = none := by
  rcases h : run init [.graph 0, .win 1, .setSg 1 0, .setSgEnd, .start 1, .graph 0, .setSg 1 0, .collect 0, .frame]
    with _ | w
  · rfl
  exfalso
  obtain ⟨w1, h1, h⟩ := run_cons h
  simp [step, stmt, init, alloc, setC, setVar, setObj] at h1
  subst h1
  obtain ⟨w2, h2, h⟩ := run_cons h
  simp [step, stmt, alloc, setC, setVar, setObj] at h2
  subst h2
  obtain ⟨w3, h3, h⟩ := run_cons h
  simp [step, stmt, look, setObj, rawOf] at h3
  obtain ⟨rfl, -⟩ := guard_some h3
  obtain ⟨w4, h4, h⟩ := run_cons h
  simp [step, setObj] at h4
  obtain ⟨-, rfl⟩ := h4
  obtain ⟨w5, h5, h⟩ := run_cons h
  simp [step, stmt, look] at h5
  subst h5
  obtain ⟨w6, h6, h⟩ := run_cons h
  simp [step, stmt, alloc, setC, setVar, setObj] at h6
  subst h6
  obtain ⟨w7, h7, h⟩ := run_cons h
  simp [step, stmt, look, setObj, rawOf] at h7
  obtain ⟨rfl, -⟩ := guard_some h7
  rw [dead_frame (x := 1) (b := ⟨.win, [2], [0]⟩) (b' := ⟨.graph, [], []⟩) rfl rfl (by simp) (by simp) (by simp)
    (by simp)] at h
  · cases h
  · refine not_reach (fun x => x = 1 ∨ x = 2) (fun v r => ?_) (by simp) (fun a b ha => ?_) (by simp)
    · dsimp only
      split_ifs <;> simp <;> omega
    · rcases ha with rfl | rfl
      · simp only [if_true]
        rintro ⟨⟩ r hr
        simp at hr
        exact Or.inr hr
      · simp
        rintro rfl r hr
        cases hr

/-- Only one window can be made in a program: also after the first is gone, the next one is a null pointer. -/
theorem C131_violates_second_window :
    run init [.win 0, .drop 0, .collect 0, .win 1, .call 1 []] = none := by
  rcases h : run init [.win 0, .drop 0, .collect 0, .win 1, .call 1 []] with _ | w
  · rfl
  exfalso
  obtain ⟨w1, h1, h⟩ := run_cons h
  simp [step, stmt, init, alloc, setC, setVar, setObj] at h1
  subst h1
  obtain ⟨w2, h2, h⟩ := run_cons h
  simp [step, stmt, setVar] at h2
  subst h2
  obtain ⟨w3, h3, h⟩ := run_cons h
  rw [collect_dead (b := ⟨.win, [], []⟩) (by simp) (by simp) (not_reach (fun x => False) (fun v r => by
    dsimp only
    split_ifs <;> simp) (by simp) (by simp) (by simp))] at h3
  simp [setC, setObj] at h3
  subst h3
  obtain ⟨w4, h4, h⟩ := run_cons h
  simp [step, stmt, alloc, setC, setVar, setObj] at h4
  subst h4
  obtain ⟨w5, h5, h⟩ := run_cons h
  simp [step, stmt] at h5
  obtain ⟨-, h6⟩ := guard_some h5
  have := h6 1 (by simp) 1 .refl
  simp at this

end Verif.PyLife
