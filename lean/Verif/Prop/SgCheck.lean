import Verif.Model.SgCheck
import Mathlib.Algebra.Group.TypeTags.Basic
import Mathlib.Algebra.Group.Int.Defs
import Mathlib.Data.List.Nodup

/-!
# C169: checked scene graphs have poses for all frames

Specification: a frame is there if the scene graph has a frame of its name; the world has no name or an
empty one. A frame has a pose if `scene-graph-tf-absolute` returns one at some depth of recursion.
-/

namespace Verif.SgCheck

open Verif.LispSg

variable {G Q D : Type}

/-- The name is that of the world or of a frame. -/
def There (sg : SG G Q D) (n : Option String) : Prop :=
  n = none ∨ n = some "" ∨ ∃ f, (n.getD "", f) ∈ sg.frames

theorem find_isSome (l : List (String × Frame G Q D)) (n : String) :
    (find l n).isSome ↔ ∃ f, (n, f) ∈ l := by
  induction l with
  | nil => simp [find]
  | cons e l ih =>
    obtain ⟨m, f⟩ := e
    simp only [find]
    by_cases h : m = n
    · subst h; simp
    · simp [h, ih, Ne.symm h]

theorem exists_iff (sg : SG G Q D) (n : String) :
    checkFrameExists sg n = true ↔ There sg (some n) := by
  simp [checkFrameExists, There, find_isSome]

theorem exists_parent (sg : SG G Q D) (f : Frame G Q D) :
    checkFrameExists sg (parentOf f) = true ↔ There sg f.parent := by
  rw [exists_iff]
  cases h : f.parent <;> simp [parentOf, There, h]

/-- The checks accept exactly the scene graphs whose frames have parents that are there, that are not
themselves, and whose allowed collisions are of frames that are there. -/
theorem C169_check (sg : SG G Q D) :
    (checkParents sg = true ↔ ∀ e ∈ sg.frames, There sg e.2.parent) ∧
    (checkSceneGraph sg = true ↔
      (∀ e ∈ sg.frames, There sg e.2.parent ∧ e.2.parent ≠ some e.1 ∧ (e.2.parent = none → e.1 ≠ "")) ∧
      ∀ c ∈ sg.allowed, There sg (some c.1) ∧ There sg (some c.2)) := by
  have hp : ∀ e : String × Frame G Q D, checkFrameParent (parentOf e.2) e.1 = true ↔
      (e.2.parent ≠ some e.1 ∧ (e.2.parent = none → e.1 ≠ "")) := by
    intro e
    cases h : e.2.parent with
    | none => simp [checkFrameParent, parentOf, h, eq_comm (a := "")]
    | some p => simp [checkFrameParent, parentOf, h]
  constructor
  · show (sg.frames.all fun e => checkFrameExists sg (parentOf e.2)) = true ↔ _
    simp only [List.all_eq_true, exists_parent]
  · simp only [checkSceneGraph, Bool.and_eq_true, List.all_eq_true, exists_parent, hp]
    simp only [exists_iff]
    constructor
    · rintro ⟨h1, h2⟩; exact ⟨fun e he => ⟨(h1 e he).2, (h1 e he).1⟩, h2⟩
    · rintro ⟨h1, h2⟩; exact ⟨fun e he => ⟨(h1 e he).2, (h1 e he).1⟩, h2⟩

variable [Group G]

/-- The frame has a pose. -/
def HasPose (sg : SG G Q D) (q : Q) (n : Option String) : Prop :=
  ∃ k g, tfAbsolute sg (some q) (fun _ => none) k n = some g

/-- In a scene graph that passes a check, every frame has a pose in every configuration. Missing: scene
graphs with frames that are their own ancestors, which pass too (`C169_cycle_violates`). -/
theorem C169_poses_partial (sg : SG G Q D) (h : checkParents sg = true ∨ checkSceneGraph sg = true)
    (rank : String → Nat)
    (hr : ∀ e ∈ sg.frames, ∀ p, e.2.parent = some p → p ≠ "" → rank p < rank e.1)
    (q : Q) (n : Option String) (hn : There sg n) : HasPose sg q n := by
  have hc : ∀ e ∈ sg.frames, There sg e.2.parent := by
    rcases h with h | h
    · exact (C169_check sg).1.1 h
    · exact fun e he => (((C169_check sg).2.1 h).1 e he).1
  have hf : ∀ (l : List (String × Frame G Q D)) n f, find l n = some f → (n, f) ∈ l := by
    intro l n f
    induction l with
    | nil => simp [find]
    | cons e l ih =>
      obtain ⟨m, g⟩ := e
      simp only [find]
      split
      · rintro ⟨⟩; simp_all
      · intro h; exact List.mem_cons_of_mem _ (ih h)
  have key : ∀ r n, rank n < r → There sg (some n) → HasPose sg q (some n) := by
    intro r
    induction r with
    | zero => intro n h; omega
    | succ r ih =>
      intro n hlt ht
      by_cases h0 : n = ""
      · exact ⟨1, 1, by simp [tfAbsolute, global, h0]⟩
      · obtain ⟨f', hf'⟩ : ∃ f, (n, f) ∈ sg.frames := by
          rcases ht with h | h | h
          · cases h
          · simp_all
          · exact h
        obtain ⟨f, hfd⟩ := Option.isSome_iff_exists.1 ((find_isSome sg.frames n).2 ⟨f', hf'⟩)
        have hm := hf _ _ _ hfd
        obtain ⟨l, hl⟩ : ∃ l, tfLocal f (some q) = some l := by
          unfold tfLocal; cases f.joint <;> simp
        cases hp : f.parent with
        | none =>
          exact ⟨1, l, by simp [tfAbsolute, global, h0, hfd, hl, hp]⟩
        | some p =>
          have : HasPose sg q (some p) := by
            by_cases hp0 : p = ""
            · exact ⟨1, 1, by simp [tfAbsolute, global, hp0]⟩
            · have : rank p < rank n := hr _ hm p hp hp0
              exact ih p (by omega) (hp ▸ hc _ hm)
          obtain ⟨k, g, hg⟩ := this
          exact ⟨k + 1, g * l, by simp [tfAbsolute, global, h0, hfd, hl, hp, hg]⟩
  cases n with
  | none => exact ⟨1, 1, rfl⟩
  | some n => exact key _ n (Nat.lt_succ_self _) hn

/-- The check of parents rejects only scene graphs in which a frame has no pose; a frame that is its own
parent has none either. Missing: scene graphs with a frame of empty name, which counts as the world. -/
theorem C169_reject_partial (sg : SG G Q D) (hu : (sg.frames.map Prod.fst).Nodup)
    (h0 : ∀ e ∈ sg.frames, e.1 ≠ "") (q : Q) :
    (checkParents sg = false → ∃ e ∈ sg.frames, ¬ HasPose sg q (some e.1)) ∧
    ∀ e ∈ sg.frames, e.2.parent = some e.1 → ¬ HasPose sg q (some e.1) := by
  have hfind : ∀ (l : List (String × Frame G Q D)), (l.map Prod.fst).Nodup → ∀ e ∈ l,
      find l e.1 = some e.2 := by
    intro l
    induction l with
    | nil => simp
    | cons a l ih =>
      intro hn e he
      simp only [List.map_cons, List.nodup_cons] at hn
      simp only [find]
      rcases List.mem_cons.1 he with h | h
      · simp [h]
      · have : a.1 ≠ e.1 := fun hc => hn.1 (hc ▸ List.mem_map_of_mem h)
        simp [this, ih hn.2 e h]
  have step : ∀ e ∈ sg.frames, ∀ p, e.2.parent = some p → ∀ k g,
      tfAbsolute sg (some q) (fun _ => none) (k + 1) (some e.1) = some g →
      ∃ g', tfAbsolute sg (some q) (fun _ => none) k (some p) = some g' := by
    intro e he p hp k g hg
    simp only [tfAbsolute, global, h0 e he, hfind _ hu e he, hp, decide_false, Bool.false_eq_true,
      if_false, Option.bind_some] at hg
    obtain ⟨l, _, h2⟩ := Option.bind_eq_some_iff.1 hg
    obtain ⟨g', h3, _⟩ := Option.map_eq_some_iff.1 h2
    exact ⟨g', h3⟩
  constructor
  · intro h
    have : ¬ ∀ e ∈ sg.frames, There sg e.2.parent := fun hc => by
      rw [(C169_check sg).1.2 hc] at h; cases h
    push Not at this
    obtain ⟨e, he, hm⟩ := this
    refine ⟨e, he, ?_⟩
    rintro ⟨k, g, hg⟩
    cases hp : e.2.parent with
    | none => exact hm (Or.inl hp)
    | some p =>
      cases k with
      | zero => cases hg
      | succ k =>
        obtain ⟨g', hg'⟩ := step e he p hp k g hg
        have hp0 : p ≠ "" := fun h => hm (Or.inr (Or.inl (by rw [hp, h])))
        have hn : find sg.frames p = none := by
          rw [← Option.not_isSome_iff_eq_none, find_isSome]
          exact fun h => hm (Or.inr (Or.inr (by rw [hp]; exact h)))
        cases k with
        | zero => cases hg'
        | succ k => simp [tfAbsolute, global, hp0, hn] at hg'
  · intro e he hp
    rintro ⟨k, g, hg⟩
    induction k generalizing g with
    | zero => cases hg
    | succ k ih =>
      obtain ⟨g', hg'⟩ := step e he _ hp k g hg
      exact ih g' hg'

/-- Two frames that are the parents of each other. -/
def loop : SG (Multiplicative ℤ) Unit Unit :=
  ⟨[("a", ⟨some "b", none, 1, ()⟩), ("b", ⟨some "a", none, 1, ()⟩)], []⟩

/-- Violated: both checks accept frames that are the parents of each other, which have no poses. -/
theorem C169_cycle_violates :
    checkParents loop = true ∧ checkSceneGraph loop = true ∧
    ¬ HasPose loop () (some "a") ∧ ¬ HasPose loop () (some "b") := by
  have key : ∀ k, tfAbsolute loop (some ()) (fun _ => none) k (some "a") = none ∧
      tfAbsolute loop (some ()) (fun _ => none) k (some "b") = none := by
    intro k
    induction k with
    | zero => exact ⟨rfl, rfl⟩
    | succ k ih =>
      constructor
      · simp [tfAbsolute, global, loop, find, tfLocal]
        exact ih.2
      · simp [tfAbsolute, global, loop, find, tfLocal]
        exact ih.1
  refine ⟨by decide +kernel, by decide +kernel, ?_, ?_⟩
  · rintro ⟨k, g, hg⟩; rw [(key k).1] at hg; cases hg
  · rintro ⟨k, g, hg⟩; rw [(key k).2] at hg; cases hg

/-- A scene graph that passes both checks, with ranks. -/
def chain : SG (Multiplicative ℤ) Unit Unit :=
  ⟨[("b", ⟨some "a", none, Multiplicative.ofAdd 2, ()⟩), ("a", ⟨none, none, Multiplicative.ofAdd 1, ()⟩)],
    [("a", "b")]⟩

example : checkParents chain = true ∧ checkSceneGraph chain = true ∧
    (∀ e ∈ chain.frames, ∀ p, e.2.parent = some p → p ≠ "" →
      (if p = "b" then 1 else 0) < if e.1 = "b" then 1 else 0) ∧
    (chain.frames.map Prod.fst).Nodup := by
  refine ⟨by decide +kernel, by decide +kernel, ?_, by decide +kernel⟩
  simp [chain]

/-- A missing parent and a missing frame of an allowed collision are errors. -/
example : checkParents (⟨[("b", ⟨some "a", none, 1, ()⟩)], []⟩ : SG (Multiplicative ℤ) Unit Unit) = false ∧
    checkSceneGraph (⟨[("b", ⟨none, none, 1, ()⟩)], [("b", "c")]⟩ : SG (Multiplicative ℤ) Unit Unit) = false := by
  constructor <;> decide +kernel

end Verif.SgCheck
