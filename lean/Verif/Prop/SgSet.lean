/-
C162: merging scene graphs of the Lisp library, allowed collisions, and limits of configurations.
-/
import Verif.Model.SgSet
import Verif.Prop.LispSg
import Mathlib.Tactic.Linarith
import Mathlib.Tactic.Ring
import Mathlib.Algebra.Order.Field.Rat

namespace Verif.SgSet

open Verif.LispSg

set_option linter.unusedSectionVars false

variable {G Q K : Type} [Group G] [Field K] [LinearOrder K] [IsStrictOrderedRing K]

/-! ### Specification -/

/-- Collisions of two frames are allowed, in either order. -/
def Allowed (s : List (String × String)) (a b : String) : Prop := (a, b) ∈ s ∨ (b, a) ∈ s

/-- The limits known for a configuration are those of every joint that uses it. -/
def Consistent (sg : Scene G Q K) : Prop :=
  ∀ n f c lim, find sg.frames n = some f → f.data = some (c, lim) → lookup sg.configs c = some lim

/-- The frame is one of the things. -/
inductive Occurs : List (Thing G Q K) → String → SFrame G Q K → Prop
  | frame (l : List (Thing G Q K)) (n : String) (f : SFrame G Q K) : Thing.frame n f ∈ l → Occurs l n f
  | graph (l : List (Thing G Q K)) (s : Scene G Q K) (n : String) (f : SFrame G Q K) : Thing.graph s ∈ l →
      find s.frames n = some f → Occurs l n f
  | list (l l' : List (Thing G Q K)) (n : String) (f : SFrame G Q K) : Thing.list l' ∈ l → Occurs l' n f → Occurs l n f

/-! ### Lemmas -/

theorem find_eq {D : Type} (l : List (String × Frame G Q D)) (n : String) : find l n = lookup l n := by
  induction l with
  | nil => rfl
  | cons e l ih => obtain ⟨m, f⟩ := e; simp only [find, lookup, ih]

theorem lookup_isSome {α : Type} (l : List (String × α)) (n : String) :
    (lookup l n).isSome = true ↔ ∃ e ∈ l, e.1 = n := by
  induction l with
  | nil => simp [lookup]
  | cons e l ih =>
      obtain ⟨m, x⟩ := e
      by_cases h : m = n
      · simp [lookup, h]
      · rw [lookup, if_neg h, ih]
        simp [h]

theorem lookup_append {α : Type} (a b : List (String × α)) (n : String) :
    lookup (a ++ b) n = (lookup a n).or (lookup b n) := by
  induction a with
  | nil => simp [lookup]
  | cons e a ih =>
      obtain ⟨m, x⟩ := e
      by_cases h : m = n
      · simp [lookup, h]
      · simp [lookup, h, ih]

theorem lookup_filter {α : Type} (l : List (String × α)) (n m : String) :
    lookup (l.filter fun e => e.1 ≠ n) m = if m = n then none else lookup l m := by
  induction l with
  | nil => simp [lookup]
  | cons e l ih =>
      obtain ⟨k, x⟩ := e
      by_cases h : k = n
      · rw [List.filter_cons_of_neg (by simp [h]), ih]
        by_cases h2 : m = n
        · simp [h2]
        · have h3 : k ≠ m := fun e => h2 (e ▸ h)
          simp [h2, lookup, h3]
      · rw [List.filter_cons_of_pos (by simp [h])]
        by_cases h2 : k = m
        · have h3 : m ≠ n := h2 ▸ h
          simp [lookup, h2, h3]
        · simp only [lookup, if_neg h2, ih]

theorem lookup_replace {α : Type} (l : List (String × α)) (n : String) (x : α) (m : String) :
    lookup (replace l n x) m = if m = n then some x else lookup l m := by
  simp only [replace, lookup, lookup_filter]
  by_cases h : n = m
  · simp [h]
  · have h2 : m ≠ n := fun e => h e.symm
    simp [h, h2]

theorem lookup_insertNew {α : Type} (l : List (String × α)) (n : String) (x : α) (m : String) :
    lookup (insertNew l n x) m = if m = n then some ((lookup l n).getD x) else lookup l m := by
  unfold insertNew
  cases h : lookup l n with
  | some y =>
      by_cases h2 : m = n
      · simp [h2, h]
      · simp [h2]
  | none =>
      by_cases h2 : n = m
      · simp [lookup, h2]
      · have h3 : m ≠ n := fun e => h2 e.symm
        simp [lookup, h2, h3]

/-- Names in tree sets are distinct. -/
def Keys {α : Type} (l : List (String × α)) : Prop := (l.map Prod.fst).Nodup

theorem lookup_foldl_replace {α : Type} (n : String) : ∀ (b a : List (String × α)), Keys b →
    lookup (b.foldl (fun l e => replace l e.1 e.2) a) n = (lookup b n).or (lookup a n)
  | [], a, _ => by simp [lookup]
  | (m, x) :: b, a, h => by
      simp only [Keys, List.map_cons, List.nodup_cons] at h
      rw [List.foldl_cons, lookup_foldl_replace n b _ h.2, lookup_replace]
      by_cases e : m = n
      · have hb : lookup b n = none := by
          cases hq : lookup b n with
          | none => rfl
          | some y =>
              obtain ⟨z, hz, hz2⟩ := (lookup_isSome b n).1 (by rw [hq]; rfl)
              exact absurd (List.mem_map_of_mem (f := Prod.fst) hz) (by rw [hz2, ← e]; exact h.1)
        simp [e, hb, lookup]
      · have e2 : n ≠ m := fun q => e q.symm
        simp [e, e2, lookup]

theorem mergeSet_none {α : Type} (a b : List (String × α)) :
    mergeSet .error a b = none ↔ ∃ n, lookup a n ≠ none ∧ lookup b n ≠ none := by
  simp only [mergeSet]
  split_ifs with h
  · obtain ⟨e, he, h2⟩ := List.any_eq_true.1 h
    refine ⟨fun _ => ⟨e.1, ?_, ?_⟩, fun _ => rfl⟩
    · exact Option.isSome_iff_ne_none.1 ((lookup_isSome a e.1).2 ⟨e, he, rfl⟩)
    · exact Option.isSome_iff_ne_none.1 h2
  · refine ⟨fun q => (by simp at q), fun ⟨n, h1, h2⟩ => absurd ?_ h⟩
    obtain ⟨e, he, rfl⟩ := (lookup_isSome a n).1 (Option.isSome_iff_ne_none.2 h1)
    exact List.any_eq_true.2 ⟨e, he, Option.isSome_iff_ne_none.2 h2⟩

theorem mergeSet_some {α : Type} {m : IfExists} {a b c : List (String × α)} (hb : Keys b) (h : mergeSet m a b = some c)
    (n : String) : lookup c n = (lookup b n).or (lookup a n) := by
  cases m with
  | supersede =>
      simp only [mergeSet, Option.some.injEq] at h
      subst h
      exact lookup_foldl_replace n b a hb
  | error =>
      have hn : mergeSet .error a b ≠ none := by rw [h]; simp
      rw [Ne, mergeSet_none] at hn
      push Not at hn
      have hc : c = a ++ b := by
        simp only [mergeSet] at h
        split_ifs at h
        exact (Option.some.inj h).symm
      subst hc
      rw [lookup_append]
      cases h1 : lookup a n with
      | none => simp
      | some x => rw [hn n (by rw [h1]; simp)]; simp

theorem mem_union {α : Type} [DecidableEq α] (a b : List α) (x : α) : x ∈ union a b ↔ x ∈ a ∨ x ∈ b := by
  simp only [union, List.mem_append, List.mem_filter, decide_not, Bool.not_eq_true', decide_eq_false_iff_not]
  by_cases h : x ∈ a <;> simp [h]

theorem pose_sub {a b : List (String × SFrame G Q K)} (h : ∀ n f, find a n = some f → find b n = some f) {q : Option Q}
    {n : Option String} {g : G} (hp : Pose ⟨a, []⟩ q n g) : Pose ⟨b, []⟩ q n g := by
  obtain ⟨fs, gs, h1, h2, h3⟩ := hp
  refine ⟨fs, gs, ?_, h2, h3⟩
  clear h2 h3
  induction h1 with
  | global n hn => exact .global n hn
  | step n f l hn hf _ ih => exact .step n f l hn (h n f hf) ih

/-! ### Properties -/

/-- C162, allowed collisions: allowing the collisions of two frames allows just these in addition, in either order, and
the order of the two does not matter. -/
theorem C162_allow (sg : Scene G Q K) (a b : String) :
    (∀ x y, Allowed (allow sg a b).allowed x y ↔
      Allowed sg.allowed x y ∨ (x = a ∧ y = b) ∨ (x = b ∧ y = a)) ∧
    allow sg a b = allow sg b a := by
  constructor
  · intro x y
    simp only [allow, collisionInsert, Allowed]
    split_ifs with h1 h2 h2 h2 h3 <;> try simp only [List.mem_cons, Prod.mk.injEq]
    all_goals (constructor <;> intro h)
    all_goals aesop
  · simp only [allow, collisionInsert]
    rcases lt_trichotomy a b with h | h | h
    · simp [h, h.ne', h.not_gt]
    · simp [h]
    · simp [h, h.ne', h.not_gt]

/-- C162, allowed collisions of many pairs. -/
theorem C162_allow_all (l : List (String × String)) : ∀ (sg : Scene G Q K) (x y : String),
    Allowed (allowAll sg l).allowed x y ↔ Allowed sg.allowed x y ∨ Allowed l x y := by
  induction l with
  | nil => intro sg x y; simp [allowAll, Allowed]
  | cons p l ih =>
      intro sg x y
      have := ih (allow sg p.1 p.2) x y
      simp only [allowAll, List.foldl_cons] at this ⊢
      rw [this, (C162_allow sg p.1 p.2).1 x y]
      obtain ⟨a, b⟩ := p
      simp only [Allowed, List.mem_cons, Prod.mk.injEq]
      tauto

theorem mem_cleanAllowed (n : String) (s : List (String × String)) (p : String × String) :
    p ∈ cleanAllowed n s ↔ p ∈ s ∧ p.1 ≠ n ∧ p.2 ≠ n := by
  have : ∀ (s t : List (String × String)),
      p ∈ s.foldl (fun t x => if x.1 = n ∨ x.2 = n then t else if x ∈ t then t else x :: t) t ↔
        p ∈ t ∨ (p ∈ s ∧ p.1 ≠ n ∧ p.2 ≠ n) := by
    intro s
    induction s with
    | nil => simp
    | cons x s ih =>
        intro t
        rw [List.foldl_cons, ih]
        split_ifs with h1 h2
        · by_cases e : p = x
          · subst e; rcases h1 with h | h <;> simp [h]
          · simp [e]
        · by_cases e : p = x
          · subst e; simp [h2]
          · simp [e]
        · push Not at h1
          by_cases e : p = x
          · subst e; simp [h1]
          · simp [e]
  rw [cleanAllowed, this s []]
  simp

/-- C162, removing frames: only the frame is gone, frames that are not below it keep their poses; a cleaned frame is in
no pair of allowed collisions, all other pairs stay. -/
theorem C162_remove (sg : Scene G Q K) (n : String) :
    (∀ m, find (cleanFrame sg n).frames m = if m = n then none else find sg.frames m) ∧
    (removeFrame sg n).frames = (cleanFrame sg n).frames ∧
    (removeFrame sg n).allowed = sg.allowed ∧
    (∀ x y, Allowed (cleanFrame sg n).allowed x y ↔ Allowed sg.allowed x y ∧ x ≠ n ∧ y ≠ n) ∧
    (∀ q m g, ¬ Under ⟨sg.frames, []⟩ n m → (Pose ⟨(cleanFrame sg n).frames, []⟩ q (some m) g ↔
      Pose ⟨sg.frames, []⟩ q (some m) g)) ∧
    (find sg.frames "" = none → n ≠ "" → ∀ q m, Under ⟨sg.frames, []⟩ n m →
      ∀ g, ¬ Pose ⟨(cleanFrame sg n).frames, []⟩ q (some m) g) := by
  have hf : ∀ m, find (cleanFrame sg n).frames m = if m = n then none else find sg.frames m := by
    intro m
    rw [find_eq, find_eq]
    exact lookup_filter sg.frames n m
  refine ⟨hf, rfl, rfl, ?_, ?_, ?_⟩
  · intro x y
    simp only [Allowed, cleanFrame, mem_cleanAllowed]
    tauto
  · intro q m g hu
    constructor
    · refine pose_sub fun k f hk => ?_
      rw [hf] at hk
      split_ifs at hk
      exact hk
    · rintro ⟨fs, gs, h1, h2, h3⟩
      refine ⟨fs, gs, ?_, h2, h3⟩
      clear h2 h3
      have : ∀ m' fs, Path sg.frames m' fs → (∀ k, m' = some k → ¬ Under ⟨sg.frames, []⟩ n k) →
          Path (cleanFrame sg n).frames m' fs := by
        intro m' fs h1
        induction h1 with
        | global n hn => exact fun _ => .global n hn
        | step k f l hk hkf _ ih =>
            intro hu
            have hkn : k ≠ n := fun e => hu k rfl (e ▸ .refl)
            refine .step k f l hk (by rw [hf, if_neg hkn]; exact hkf) (ih fun p hp hup => hu k rfl ?_)
            exact .step k p f hkf hp hup
      exact this _ fs h1 fun k hk => by cases hk; exact hu
  · intro h0 hn q m hu
    have hne : ∀ k, Under ⟨sg.frames, []⟩ n k → k ≠ "" := by
      rintro k hk rfl
      cases hk with
      | refl => exact hn rfl
      | step _ p f h _ _ => rw [h0] at h; simp at h
    have hp : ∀ k, Under ⟨sg.frames, []⟩ n k → ∀ fs, ¬ Path (cleanFrame sg n).frames (some k) fs := by
      intro k hu
      induction hu with
      | refl =>
          intro fs h1
          cases h1 with
          | global _ h => rcases h with h | h <;> simp at h; exact hn h
          | step _ f l _ h _ => rw [hf, if_pos rfl] at h; simp at h
      | step k p f hk hp hu ih =>
          intro fs h1
          cases h1 with
          | global _ h => rcases h with h | h <;> simp at h; exact hne k (.step k p f hk hp hu) h
          | step _ f' l _ h hl =>
              rw [hf] at h
              split_ifs at h
              have : f' = f := by
                have hk' : find sg.frames k = some f := hk
                rw [hk'] at h; exact (Option.some.inj h).symm
              subst this
              rw [hp] at hl
              exact ih l hl
    rintro g ⟨fs, gs, h1, -, -⟩
    exact hp m hu fs h1

/-- C162, merging: it fails only for duplicate frames or configurations, unless the new ones are to be taken; the result
has the frames, configurations, files and allowed collisions of both and no others; all frames of the new scene graph
keep their poses, and so do those of the old one unless replaced. -/
theorem C162_merge (a b : Scene G Q K) (hf : Keys b.frames) (hc : Keys b.configs) :
    (merge .supersede a b ≠ none) ∧
    (merge .error a b = none ↔ (∃ n, find a.frames n ≠ none ∧ find b.frames n ≠ none) ∨
      ∃ c, lookup a.configs c ≠ none ∧ lookup b.configs c ≠ none) ∧
    ∀ m s, merge m a b = some s →
      (∀ n, find s.frames n = (find b.frames n).or (find a.frames n)) ∧
      (∀ c, lookup s.configs c = (lookup b.configs c).or (lookup a.configs c)) ∧
      (∀ x y, Allowed s.allowed x y ↔ Allowed a.allowed x y ∨ Allowed b.allowed x y) ∧
      (∀ x, x ∈ s.files ↔ x ∈ a.files ∨ x ∈ b.files) ∧
      (∀ q n g, Pose ⟨b.frames, []⟩ q n g → Pose ⟨s.frames, []⟩ q n g) ∧
      (m = .error → ∀ q n g, Pose ⟨a.frames, []⟩ q n g → Pose ⟨s.frames, []⟩ q n g) ∧
      (m = .error → Consistent a → Consistent b → Consistent s) := by
  refine ⟨by simp [merge, mergeSet], ?_, ?_⟩
  · simp only [merge, find_eq, ← mergeSet_none]
    cases mergeSet .error a.frames b.frames <;> cases mergeSet .error a.configs b.configs <;> simp
  · intro m s h
    obtain ⟨fr, h1, h2⟩ := Option.bind_eq_some_iff.1 h
    obtain ⟨cf, h3, rfl⟩ := Option.map_eq_some_iff.1 h2
    have k1 : ∀ n, find fr n = (find b.frames n).or (find a.frames n) := by
      intro n; simp only [find_eq]; exact mergeSet_some hf h1 n
    have k2 := mergeSet_some hc h3
    have hbs : ∀ n f, find b.frames n = some f → find fr n = some f := by
      intro n f hn; rw [k1, hn]; rfl
    have has : m = .error → ∀ n f, find a.frames n = some f → find fr n = some f := by
      rintro rfl n f hn
      have : mergeSet .error a.frames b.frames ≠ none := by rw [h1]; simp
      rw [Ne, mergeSet_none] at this
      push Not at this
      have hb := this n (by rw [← find_eq, hn]; simp)
      rw [k1, find_eq b.frames, hb, hn]; rfl
    have hac : m = .error → ∀ n x, lookup a.configs n = some x → lookup cf n = some x := by
      rintro rfl n f hn
      have : mergeSet .error a.configs b.configs ≠ none := by rw [h3]; simp
      rw [Ne, mergeSet_none] at this
      push Not at this
      have hb := this n (by rw [hn]; simp)
      rw [k2, hb, hn]; rfl
    refine ⟨k1, k2, ?_, ?_, ?_, ?_, ?_⟩
    · intro x y
      simp only [Allowed, mem_union]
      tauto
    · intro x; exact mem_union _ _ x
    · intro q n g hp; exact pose_sub hbs hp
    · intro hm q n g hp; exact pose_sub (has hm) hp
    · intro hm ha hb n f c lim hn hd
      simp only [k1] at hn
      cases hbn : find b.frames n with
      | some f' =>
          rw [hbn] at hn
          simp only [Option.some_or, Option.some.injEq] at hn
          subst hn
          have := hb n f' c lim hbn hd
          simp only [k2, this, Option.some_or]
      | none =>
          rw [hbn] at hn
          simp only [Option.none_or] at hn
          exact hac hm c lim (ha n f c lim hn hd)

/-- C162, limits: a configuration whose limits are not yet known has the limits of the frame that is added; no other limits
change. -/
theorem C162_add_partial (sg : Scene G Q K) (n : String) (f : SFrame G Q K) :
    (∀ m, find (addFrame sg n f).frames m = if m = n then some f else find sg.frames m) ∧
    (∀ c, (∀ lim, f.data ≠ some (c, lim)) → lookup (addFrame sg n f).configs c = lookup sg.configs c) ∧
    (∀ c lim, f.data = some (c, lim) → lookup sg.configs c = none ∨ lookup sg.configs c = some lim →
      lookup (addFrame sg n f).configs c = some lim ∧ (Consistent sg → Consistent (addFrame sg n f))) := by
  have hfr : ∀ m, find (addFrame sg n f).frames m = if m = n then some f else find sg.frames m := by
    intro m; simp only [find_eq]; exact lookup_replace sg.frames n f m
  refine ⟨hfr, ?_, ?_⟩
  · intro c hc
    unfold addFrame
    cases hd : f.data with
    | none => rfl
    | some p =>
        obtain ⟨c', lim⟩ := p
        have : c ≠ c' := fun e => hc lim (by rw [hd, e])
        simp only [lookup_insertNew, if_neg this]
  · intro c lim hd hl
    have hcf : ∀ k, lookup (addFrame sg n f).configs k = if k = c then some lim else lookup sg.configs k := by
      intro k
      simp only [addFrame, hd, lookup_insertNew]
      split_ifs with hk
      · rcases hl with hl | hl <;> simp [hl]
      · rfl
    refine ⟨by rw [hcf, if_pos rfl], fun hs m f' c' lim' hm hd' => ?_⟩
    rw [hfr] at hm
    rw [hcf]
    split_ifs at hm with hmn
    · simp only [Option.some.injEq] at hm
      subst hm
      rw [hd] at hd'
      simp only [Option.some.injEq, Prod.mk.injEq] at hd'
      simp [hd'.1, hd'.2]
    · have := hs m f' c' lim' hm hd'
      split_ifs with hk
      · subst hk
        rw [this] at hl
        rcases hl with hl | hl
        · simp at hl
        · rw [hl]
      · exact this

/-- C162, limits: the configurations found out of limits are those with a value beyond a limit. -/
theorem C162_limits (sg : Scene G Q K) (m : List (String × K)) (c : String) :
    c ∈ outOfLimits sg m ↔ ∃ v lo hi, (c, v) ∈ m ∧ configLimits sg c = some (lo, hi) ∧ (v < lo ∨ hi < v) := by
  have : ∀ (m : List (String × K)) (acc : List String),
      c ∈ m.foldl (fun v e => match configLimits sg e.1 with
        | none => v
        | some (lo, hi) => if e.2 ≤ hi ∧ lo ≤ e.2 then v else e.1 :: v) acc ↔
      c ∈ acc ∨ ∃ v lo hi, (c, v) ∈ m ∧ configLimits sg c = some (lo, hi) ∧ (v < lo ∨ hi < v) := by
    intro m
    induction m with
    | nil => simp
    | cons e m ih =>
        intro acc
        obtain ⟨d, v⟩ := e
        rw [List.foldl_cons, ih]
        cases hc : configLimits sg d with
        | none =>
            simp only
            constructor
            · rintro (h | ⟨w, lo, hi, h1, h2, h3⟩)
              · exact .inl h
              · exact .inr ⟨w, lo, hi, by simp [h1], h2, h3⟩
            · rintro (h | ⟨w, lo, hi, h1, h2, h3⟩)
              · exact .inl h
              · refine .inr ⟨w, lo, hi, ?_, h2, h3⟩
                rcases List.mem_cons.1 h1 with h | h
                · cases h; rw [hc] at h2; simp at h2
                · exact h
        | some p =>
            obtain ⟨lo, hi⟩ := p
            simp only
            split_ifs with hin
            · constructor
              · rintro (h | ⟨w, lo, hi, h1, h2, h3⟩)
                · exact .inl h
                · exact .inr ⟨w, lo, hi, by simp [h1], h2, h3⟩
              · rintro (h | ⟨w, lo', hi', h1, h2, h3⟩)
                · exact .inl h
                · refine .inr ⟨w, lo', hi', ?_, h2, h3⟩
                  rcases List.mem_cons.1 h1 with h | h
                  · cases h
                    rw [hc] at h2
                    cases h2
                    rcases h3 with h | h
                    · exact absurd hin.2 (not_le.2 h)
                    · exact absurd hin.1 (not_le.2 h)
                  · exact h
            · constructor
              · rintro (h | ⟨w, lo, hi, h1, h2, h3⟩)
                · rcases List.mem_cons.1 h with h | h
                  · subst h
                    refine .inr ⟨v, lo, hi, by simp, hc, ?_⟩
                    by_contra hn
                    push Not at hn
                    exact hin ⟨hn.2, hn.1⟩
                  · exact .inl h
                · exact .inr ⟨w, lo, hi, by simp [h1], h2, h3⟩
              · rintro (h | ⟨w, lo', hi', h1, h2, h3⟩)
                · exact .inl (by simp [h])
                · rcases List.mem_cons.1 h1 with h | h
                  · cases h; exact .inl (by simp)
                  · exact .inr ⟨w, lo', hi', h, h2, h3⟩
  exact (this m []).trans (by simp)

theorem mem_configurations (sg : Scene G Q K) (n : String) :
    n ∈ configurations sg ↔ ∃ f, (n, f) ∈ sg.frames ∧ f.data ≠ none := by
  have : ∀ (l : List (String × SFrame G Q K)) (acc : List String),
      n ∈ l.foldl (fun l e => e.1 :: l) acc ↔ n ∈ acc ∨ ∃ f, (n, f) ∈ l := by
    intro l
    induction l with
    | nil => simp
    | cons e l ih =>
        intro acc
        obtain ⟨m, f⟩ := e
        rw [List.foldl_cons, ih]
        simp only [List.mem_cons, Prod.mk.injEq]
        constructor
        · rintro ((rfl | h) | ⟨f', h⟩)
          · exact .inr ⟨f, .inl ⟨rfl, rfl⟩⟩
          · exact .inl h
          · exact .inr ⟨f', .inr h⟩
        · rintro (h | ⟨f', ⟨rfl, -⟩ | h⟩)
          · exact .inl (.inr h)
          · exact .inl (.inl rfl)
          · exact .inr ⟨f', h⟩
  rw [configurations, this]
  simp [Option.isSome_iff_ne_none]

theorem lookup_centerMap (sg : Scene G Q K) (c : String) :
    lookup (centerMap sg) c = if c ∈ configurations sg then some (jointCenter sg c) else none := by
  have : ∀ (l : List String) (acc : List (String × K)),
      lookup (l.foldl (fun m c => replace m c (jointCenter sg c)) acc) c =
        if c ∈ l then some (jointCenter sg c) else lookup acc c := by
    intro l
    induction l with
    | nil => simp
    | cons d l ih =>
        intro acc
        rw [List.foldl_cons, ih, lookup_replace]
        by_cases h1 : c ∈ l
        · simp [h1]
        · by_cases h2 : c = d
          · simp [h2]
          · simp [h1, h2]
  rw [centerMap, this]
  rfl

theorem mem_centerMap (sg : Scene G Q K) {c : String} {v : K} (h : (c, v) ∈ centerMap sg) : v = jointCenter sg c := by
  have : ∀ (l : List String) (acc : List (String × K)), (∀ e ∈ acc, e.2 = jointCenter sg e.1) →
      ∀ e ∈ l.foldl (fun m c => replace m c (jointCenter sg c)) acc, e.2 = jointCenter sg e.1 := by
    intro l
    induction l with
    | nil => intro acc h; exact h
    | cons d l ih =>
        intro acc h
        rw [List.foldl_cons]
        refine ih _ fun e he => ?_
        rcases List.mem_cons.1 he with rfl | he
        · rfl
        · exact h e (List.mem_filter.1 he).1
  exact this _ [] (by simp) (c, v) h

/-- C162, centres: the centres of a scene graph are within its limits. -/
theorem C162_center (sg : Scene G Q K) (h : ∀ c lo hi, configLimits sg c = some (lo, hi) → lo ≤ hi) :
    outOfLimits sg (centerMap sg) = [] := by
  refine List.eq_nil_iff_forall_not_mem.2 fun c hc => ?_
  obtain ⟨v, lo, hi, h1, h2, h3⟩ := (C162_limits sg _ c).1 hc
  have hv := mem_centerMap sg h1
  simp only [jointCenter, h2] at hv
  have := h c lo hi h2
  rcases h3 with h3 | h3 <;> linarith

/-- C162, centres: if configurations have the names of their frames, the map has just the configurations of the joints, each
in the middle of the limits of its joint. -/
theorem C162_center_partial (sg : Scene G Q K) (hk : Keys sg.frames) (hs : Consistent sg)
    (hn : ∀ n f c lim, find sg.frames n = some f → f.data = some (c, lim) → c = n) :
    (∀ n f c lo hi, find sg.frames n = some f → f.data = some (c, some (lo, hi)) →
      ∃ v, lookup (centerMap sg) c = some v ∧ v - lo = hi - v) ∧
    (∀ n f c, find sg.frames n = some f → f.data = some (c, none) → lookup (centerMap sg) c = some 0) ∧
    ∀ c, lookup (centerMap sg) c ≠ none → ∃ n f lim, find sg.frames n = some f ∧ f.data = some (c, lim) := by
  have hmem : ∀ (l : List (String × SFrame G Q K)) n f, find l n = some f → (n, f) ∈ l := by
    intro l n f h
    induction l with
    | nil => simp [find] at h
    | cons e l ih =>
        obtain ⟨m, x⟩ := e
        simp only [find] at h
        split_ifs at h with e
        · simp only [Option.some.injEq] at h; simp [e, h]
        · simp [ih h]
  have hfind : ∀ (l : List (String × SFrame G Q K)), Keys l → ∀ n f, (n, f) ∈ l → find l n = some f := by
    intro l hl n f h
    induction l with
    | nil => simp at h
    | cons e l ih =>
        obtain ⟨m, x⟩ := e
        simp only [Keys, List.map_cons, List.nodup_cons] at hl
        rcases List.mem_cons.1 h with h | h
        · cases h; simp [find]
        · have : m ≠ n := fun e => hl.1 (e ▸ List.mem_map_of_mem (f := Prod.fst) h)
          simp only [find, if_neg this]
          exact ih hl.2 h
  have hin : ∀ n f c lim, find sg.frames n = some f → f.data = some (c, lim) →
      lookup (centerMap sg) c = some (jointCenter sg c) := by
    intro n f c lim h1 h2
    rw [lookup_centerMap, if_pos ((mem_configurations sg c).2 ⟨f, ?_, by rw [h2]; simp⟩)]
    rw [hn n f c lim h1 h2]; exact hmem _ n f h1
  refine ⟨?_, ?_, ?_⟩
  · intro n f c lo hi h1 h2
    refine ⟨_, hin n f c _ h1 h2, ?_⟩
    have := hs n f c _ h1 h2
    simp only [jointCenter, configLimits, this, Option.join_some]
    ring
  · intro n f c h1 h2
    have := hs n f c _ h1 h2
    rw [hin n f c _ h1 h2]
    simp [jointCenter, configLimits, this]
  · intro c hc
    rw [lookup_centerMap] at hc
    have hc' : c ∈ configurations sg := by by_contra q; simp [q] at hc
    obtain ⟨f, h1, h2⟩ := (mem_configurations sg c).1 hc'
    obtain ⟨⟨d, lim⟩, h3⟩ := Option.ne_none_iff_exists'.1 h2
    have h4 := hfind _ hk c f h1
    exact ⟨c, f, lim, h4, by rw [h3, hn c f d lim h4 h3]⟩

/-! ### Things -/

theorem has_merge {a b s : Scene G Q K} (h : merge .error a b = some s) (n : String) :
    find s.frames n = (find a.frames n).or (find b.frames n) := by
  obtain ⟨fr, h1, h2⟩ := Option.bind_eq_some_iff.1 h
  obtain ⟨cf, h3, rfl⟩ := Option.map_eq_some_iff.1 h2
  simp only [mergeSet] at h1
  split_ifs at h1
  simp only [Option.some.injEq] at h1
  subst h1
  simp only [find_eq, lookup_append]

theorem occurs_cons (t : Thing G Q K) (l : List (Thing G Q K)) (n : String) (f : SFrame G Q K) :
    Occurs (t :: l) n f ↔ Occurs [t] n f ∨ Occurs l n f := by
  constructor
  · intro h
    cases h with
    | frame _ _ _ h =>
        rcases List.mem_cons.1 h with h | h
        · exact .inl (.frame _ _ _ (by simp [h]))
        · exact .inr (.frame _ _ _ h)
    | graph _ s _ _ h h2 =>
        rcases List.mem_cons.1 h with h | h
        · exact .inl (.graph _ s _ _ (by simp [h]) h2)
        · exact .inr (.graph _ s _ _ h h2)
    | list _ l' _ _ h h2 =>
        rcases List.mem_cons.1 h with h | h
        · exact .inl (.list _ l' _ _ (by simp [h]) h2)
        · exact .inr (.list _ l' _ _ h h2)
  · rintro (h | h)
    · cases h with
      | frame _ _ _ h => exact .frame _ _ _ (by simp at h; simp [h])
      | graph _ s _ _ h h2 => exact .graph _ s _ _ (by simp at h; simp [h]) h2
      | list _ l' _ _ h h2 => exact .list _ l' _ _ (by simp at h; simp [h]) h2
    · cases h with
      | frame _ _ _ h => exact .frame _ _ _ (by simp [h])
      | graph _ s _ _ h h2 => exact .graph _ s _ _ (by simp [h]) h2
      | list _ l' _ _ h h2 => exact .list _ l' _ _ (by simp [h]) h2

mutual
theorem addThing_has : ∀ (t : Thing G Q K) (sg s : Scene G Q K), addThing sg t = some s →
    (∀ n f, find s.frames n = some f → find sg.frames n = some f ∨ Occurs [t] n f) ∧
    (∀ n, find sg.frames n ≠ none → find s.frames n ≠ none) ∧
    (∀ n f, Occurs [t] n f → find s.frames n ≠ none)
  | .frame k x, sg, s, h => by
      simp only [addThing, Option.some.injEq] at h
      subst h
      have hk := (C162_add_partial sg k x).1
      refine ⟨?_, ?_, ?_⟩
      · intro n f hn
        rw [hk] at hn
        split_ifs at hn with e
        · simp only [Option.some.injEq] at hn
          exact .inr (.frame _ _ _ (by simp [e, hn]))
        · exact .inl hn
      · intro n hn
        rw [hk]
        split_ifs
        · simp
        · exact hn
      · intro n f ho
        cases ho with
        | frame _ _ _ h => simp at h; rw [hk, if_pos h.1]; simp
        | graph _ s _ _ h h2 => simp at h
        | list _ l' _ _ h h2 => simp at h
  | .graph g, sg, s, h => by
      simp only [addThing] at h
      have hk := has_merge h
      refine ⟨?_, ?_, ?_⟩
      · intro n f hn
        rw [hk] at hn
        rcases Option.or_eq_some_iff.1 hn with h1 | ⟨-, h1⟩
        · exact .inl h1
        · exact .inr (.graph _ g _ _ (by simp) h1)
      · intro n hn
        rw [hk]
        simp [hn]
      · intro n f ho
        cases ho with
        | frame _ _ _ h => simp at h
        | graph _ s _ _ h h2 => simp at h; subst h; rw [hk]; simp [h2]
        | list _ l' _ _ h h2 => simp at h
  | .list l, sg, s, h => by
      simp only [addThing] at h
      obtain ⟨g, h1, h2⟩ := Option.bind_eq_some_iff.1 h
      have hk := has_merge h2
      obtain ⟨i1, -, i3⟩ := addThings_has l empty g h1
      refine ⟨?_, ?_, ?_⟩
      · intro n f hn
        rw [hk] at hn
        rcases Option.or_eq_some_iff.1 hn with h1 | ⟨-, h1⟩
        · exact .inl h1
        · rcases i1 n f h1 with h | h
          · simp [empty, find] at h
          · exact .inr (.list _ l _ _ (by simp) h)
      · intro n hn
        rw [hk]
        simp [hn]
      · intro n f ho
        cases ho with
        | frame _ _ _ h => simp at h
        | graph _ s _ _ h h2 => simp at h
        | list _ l' _ _ h h2 => simp at h; subst h; rw [hk]; simp [i3 n f h2]

theorem addThings_has : ∀ (l : List (Thing G Q K)) (sg s : Scene G Q K), addThings sg l = some s →
    (∀ n f, find s.frames n = some f → find sg.frames n = some f ∨ Occurs l n f) ∧
    (∀ n, find sg.frames n ≠ none → find s.frames n ≠ none) ∧
    (∀ n f, Occurs l n f → find s.frames n ≠ none)
  | [], sg, s, h => by
      simp only [addThings, Option.some.injEq] at h
      subst h
      refine ⟨fun n f h => .inl h, fun n h => h, fun n f h => ?_⟩
      cases h with
      | frame _ _ _ h => simp at h
      | graph _ s _ _ h h2 => simp at h
      | list _ l' _ _ h h2 => simp at h
  | t :: l, sg, s, h => by
      simp only [addThings] at h
      obtain ⟨g, h1, h2⟩ := Option.bind_eq_some_iff.1 h
      obtain ⟨i1, i2, i3⟩ := addThing_has t sg g h1
      obtain ⟨k1, k2, k3⟩ := addThings_has l g s h2
      refine ⟨fun n f hn => ?_, fun n hn => k2 n (i2 n hn), fun n f ho => ?_⟩
      · rw [occurs_cons]
        rcases k1 n f hn with h | h
        · rcases i1 n f h with h | h
          · exact .inl h
          · exact .inr (.inl h)
        · exact .inr (.inr h)
      · rcases (occurs_cons t l n f).1 ho with h | h
        · exact k2 n (i3 n f h)
        · exact k3 n f h
end

/-- C162, things: a scene graph has a frame for each name among the things, which is one of theirs, and no other
frames. -/
theorem C162_things (l : List (Thing G Q K)) (sg : Scene G Q K) (h : sceneGraph l = some sg) :
    (∀ n f, find sg.frames n = some f → Occurs l n f) ∧ ∀ n f, Occurs l n f → ∃ f', find sg.frames n = some f' := by
  obtain ⟨h1, -, h3⟩ := addThings_has l empty sg h
  refine ⟨fun n f hn => ?_, fun n f ho => Option.ne_none_iff_exists'.1 (h3 n f ho)⟩
  rcases h1 n f hn with h | h
  · simp [empty, find] at h
  · exact h

/-! ### Examples and violations -/

abbrev Line := Multiplicative ℤ

/-- A joint on `parent` with the configuration `c`. -/
def joint (parent : Option String) (c : String) (lim : Option (ℚ × ℚ)) : SFrame Line Unit ℚ :=
  ⟨parent, some fun _ => 1, .ofAdd 2, some (c, lim)⟩

def fixed (parent : Option String) : SFrame Line Unit ℚ := ⟨parent, none, .ofAdd 5, none⟩

def robot : Scene Line Unit ℚ :=
  (allow (addFrame (addFrame empty "j" (joint none "j" (some (-1, 3)))) "hand" (fixed (some "j"))) "hand" "table")

def table : Scene Line Unit ℚ := addFrame empty "table" (fixed none)

example : (merge .error robot table).map (fun s => (s.frames.map Prod.fst, s.allowed)) =
    some (["hand", "j", "table"], [("hand", "table")]) := by decide +kernel

example : merge .error robot robot = none := rfl

example : Keys table.frames ∧ Keys table.configs ∧ Keys robot.frames ∧ Keys robot.configs := by
  simp only [Keys]; decide +kernel

example : centerMap robot = [("j", 1)] := by decide +kernel

example : outOfLimits robot [("j", 4), ("k", 9)] = ["j"] := by decide +kernel

example : Consistent robot ∧ (∀ n f c lim, find robot.frames n = some f → f.data = some (c, lim) → c = n) ∧
    ∀ c lo hi, configLimits robot c = some (lo, hi) → lo ≤ hi := by
  have hr : ∀ n f, find robot.frames n = some f →
      (n = "hand" ∧ f = fixed (some "j")) ∨ (n = "j" ∧ f = joint none "j" (some (-1, 3))) := by
    intro n f h
    have : robot.frames = [("hand", fixed (some "j")), ("j", joint none "j" (some (-1, 3)))] := rfl
    rw [this] at h
    simp only [find] at h
    split_ifs at h with h1 h2
    · simp only [Option.some.injEq] at h; exact .inl ⟨h1.symm, h.symm⟩
    · simp only [Option.some.injEq] at h; exact .inr ⟨h2.symm, h.symm⟩
  refine ⟨?_, ?_, ?_⟩
  · intro n f c lim h1 h2
    rcases hr n f h1 with ⟨-, rfl⟩ | ⟨-, rfl⟩
    · simp [fixed] at h2
    · simp only [joint, Option.some.injEq, Prod.mk.injEq] at h2
      obtain ⟨rfl, rfl⟩ := h2
      rfl
  · intro n f c lim h1 h2
    rcases hr n f h1 with ⟨-, rfl⟩ | ⟨rfl, rfl⟩
    · simp [fixed] at h2
    · simp only [joint, Option.some.injEq, Prod.mk.injEq] at h2
      exact h2.1.symm
  · intro c lo hi h
    have : robot.configs = [("j", some (-1, 3))] := rfl
    simp only [configLimits, this, lookup] at h
    split_ifs at h
    · simp only [Option.join_some, Option.some.injEq, Prod.mk.injEq] at h
      rw [← h.1, ← h.2]
      norm_num
    · simp at h

example : ((sceneGraph [.graph robot, .list [.frame "cup" (fixed (some "table")), .graph table]]).map
    fun s => s.frames.map Prod.fst) = some ["hand", "j", "cup", "table"] := by decide +kernel

/-- C162 fails: a frame that replaces another one keeps the limits of the old one. -/
theorem C162_limits_violates : ∃ (sg : Scene Line Unit ℚ) (f : SFrame Line Unit ℚ), Consistent sg ∧
    f.data = some ("j", some (0, 1)) ∧ find (addFrame sg "j" f).frames "j" = some f ∧
      configLimits (addFrame sg "j" f) "j" = some (-1, 3) := by
  refine ⟨addFrame empty "j" (joint none "j" (some (-1, 3))), joint none "j" (some (0, 1)), ?_, rfl, rfl, by decide +kernel⟩
  exact (((C162_add_partial (empty : Scene Line Unit ℚ) "j" (joint none "j" (some (-1, 3)))).2.2 "j" _ rfl
    (.inl rfl)).2) fun n f c lim h => by simp [empty, find] at h

/-- C162 fails: the configuration of a joint is still known after the frame has been cleaned, so it cannot be added again
from another scene graph. -/
theorem C162_clean_violates : ∃ sg b : Scene Line Unit ℚ, find (cleanFrame sg "j").frames "j" = none ∧
    (∀ n, find sg.frames n ≠ none → n = "j") ∧ (cleanFrame sg "j").configs = [("j", some (-1, 3))] ∧
      merge .error (cleanFrame sg "j") b = none ∧ b.frames.map Prod.fst = ["j"] := by
  refine ⟨addFrame empty "j" (joint none "j" (some (-1, 3))), addFrame empty "j" (joint none "j" none), rfl, ?_,
    rfl, rfl, rfl⟩
  intro n h
  rw [(C162_add_partial _ _ _).1] at h
  by_contra hn
  rw [if_neg hn] at h
  exact h rfl

/-- C162 fails: a configuration with a name of its own is not in the map of centres; the name of the frame is, at zero. -/
theorem C162_center_violates : ∃ sg : Scene Line Unit ℚ, sg.frames.map (fun e => (e.1, e.2.data)) =
    [("shoulder", some ("q1", some (2, 4)))] ∧ configLimits sg "q1" = some (2, 4) ∧
      centerMap sg = [("shoulder", 0)] :=
  ⟨addFrame empty "shoulder" (joint none "q1" (some (2, 4))), by decide +kernel, by decide +kernel, by decide +kernel⟩

/-- C162 fails: cleaning a frame leaves those on it, which then have no pose. -/
theorem C162_children_violates : ∃ sg : Scene Line Unit ℚ, (∃ g, Pose ⟨sg.frames, []⟩ (some ()) (some "hand") g) ∧
    find (cleanFrame sg "j").frames "hand" ≠ none ∧
      ∀ q g, ¬ Pose ⟨(cleanFrame sg "j").frames, []⟩ q (some "hand") g := by
  refine ⟨robot, ⟨_, pose_step _ _ "hand" (fixed (some "j")) _ _ (by decide) rfl (.inl ⟨rfl, rfl⟩)
    (pose_step _ _ "j" (joint none "j" (some (-1, 3))) _ _ (by decide) rfl (.inr ⟨_, (), rfl, rfl, rfl⟩)
      (pose_global _ _ _ (.inl rfl)))⟩, ?_, ?_⟩
  · rw [(C162_remove robot "j").1]
    simp [robot, allow, addFrame, put, find]
  · intro q g
    exact (C162_remove robot "j").2.2.2.2.2 rfl (by decide) q "hand"
      (.step "hand" "j" (fixed (some "j")) rfl rfl .refl) g

end Verif.SgSet
