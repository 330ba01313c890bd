/-
C159: poses in scene graphs of the Lisp library.
-/
import Verif.Model.LispSg
import Mathlib.Algebra.BigOperators.Group.List.Basic
import Mathlib.Data.List.Forall2
import Mathlib.Algebra.Group.Int.Defs
import Mathlib.Algebra.Group.TypeTags.Basic
import Mathlib.Order.Nat

namespace Verif.LispSg

set_option linter.unusedSectionVars false

variable {G Q D : Type} [Group G]

/-! ### Specification -/

/-- The name of the global frame. -/
def IsGlobal (n : Option String) : Prop := n = none ∨ n = some ""

/-- The frames from the global frame to `n`. -/
inductive Path (fr : List (String × Frame G Q D)) : Option String → List (Frame G Q D) → Prop
  | global (n : Option String) : IsGlobal n → Path fr n []
  | step (n : String) (f : Frame G Q D) (l : List (Frame G Q D)) : n ≠ "" → find fr n = some f →
      Path fr f.parent l → Path fr (some n) (l ++ [f])

/-- The motion of a frame relative to its parent. -/
def Local (q : Option Q) (f : Frame G Q D) (g : G) : Prop :=
  (f.joint = none ∧ g = f.tf) ∨ ∃ mv c, f.joint = some mv ∧ q = some c ∧ g = f.tf * mv c

/-- The pose of a frame: the product of the motions from the global frame to it. -/
def Pose (sg : SG G Q D) (q : Option Q) (n : Option String) (g : G) : Prop :=
  ∃ fs gs, Path sg.frames n fs ∧ List.Forall₂ (Local q) fs gs ∧ g = gs.prod

/-- `m` is `n` or below it. -/
inductive Under (sg : SG G Q D) (n : String) : String → Prop
  | refl : Under sg n n
  | step (m p : String) (f : Frame G Q D) : find sg.frames m = some f → f.parent = some p → Under sg n p →
      Under sg n m

/-! ### Lemmas -/

theorem tfLocal_iff (q : Option Q) (f : Frame G Q D) (g : G) : tfLocal f q = some g ↔ Local q f g := by
  unfold tfLocal Local
  cases hj : f.joint with
  | none => simp [eq_comm]
  | some mv =>
      cases q with
      | none => simp
      | some c => simp [eq_comm]

theorem pose_global (sg : SG G Q D) (q : Option Q) (n : Option String) (h : IsGlobal n) : Pose sg q n 1 :=
  ⟨[], [], .global n h, .nil, by simp⟩

theorem pose_step (sg : SG G Q D) (q : Option Q) (n : String) (f : Frame G Q D) (l g : G) (hn : n ≠ "")
    (hf : find sg.frames n = some f) (hl : Local q f l) (hp : Pose sg q f.parent g) :
    Pose sg q (some n) (g * l) := by
  obtain ⟨fs, gs, h1, h2, rfl⟩ := hp
  exact ⟨fs ++ [f], gs ++ [l], .step n f fs hn hf h1, List.rel_append h2 (.cons hl .nil), by simp⟩

theorem forall₂_snoc {α β : Type} {R : α → β → Prop} {f : α} : ∀ {l : List α} {gs : List β},
    List.Forall₂ R (l ++ [f]) gs → ∃ a b, List.Forall₂ R l a ∧ R f b ∧ gs = a ++ [b]
  | [], _, .cons h .nil => ⟨[], _, .nil, h, rfl⟩
  | _ :: _, _, .cons h t =>
      let ⟨a, b, h1, h2, h3⟩ := forall₂_snoc t
      ⟨_ :: a, b, .cons h h1, h2, by rw [h3]; rfl⟩

theorem pose_cases {sg : SG G Q D} {q : Option Q} {n : Option String} {g : G} (h : Pose sg q n g) :
    (IsGlobal n ∧ g = 1) ∨ ∃ m f l p, n = some m ∧ m ≠ "" ∧ find sg.frames m = some f ∧ Local q f l ∧
      Pose sg q f.parent p ∧ g = p * l := by
  obtain ⟨fs, gs, h1, h2, rfl⟩ := h
  cases h1 with
  | global _ hn => cases h2; exact .inl ⟨hn, by simp⟩
  | step m f l hm hf hp =>
      right
      obtain ⟨a, b, ha, hb, rfl⟩ := forall₂_snoc h2
      exact ⟨m, f, b, a.prod, rfl, hm, hf, hb, ⟨l, a, hp, ha, rfl⟩, by simp⟩

/-- Induction on the pose. -/
theorem pose_induction {sg : SG G Q D} {q : Option Q} {P : Option String → G → Prop}
    (h0 : ∀ n, IsGlobal n → P n 1)
    (h1 : ∀ m f l p, m ≠ "" → find sg.frames m = some f → Local q f l → Pose sg q f.parent p → P f.parent p →
      P (some m) (p * l)) {n : Option String} {g : G} (h : Pose sg q n g) : P n g := by
  obtain ⟨fs, gs, hp, hl, rfl⟩ := h
  induction hp generalizing gs with
  | global n hn => cases hl; simpa using h0 n hn
  | step m f l hm hf hp ih =>
      obtain ⟨a, b, h3, h5, rfl⟩ := forall₂_snoc hl
      simpa using h1 m f b a.prod hm hf h5 ⟨l, a, hp, h3, rfl⟩ (ih a h3)

theorem local_unique {q : Option Q} {f : Frame G Q D} {a b : G} (h : Local q f a) (h' : Local q f b) : a = b := by
  rw [← tfLocal_iff] at h h'
  rw [h] at h'
  exact Option.some.inj h'

theorem not_global {m : String} (h : m ≠ "") : ¬ IsGlobal (some m) := by
  rintro (h' | h')
  · simp at h'
  · exact h (Option.some.inj h')

theorem pose_unique {sg : SG G Q D} {q : Option Q} {n : Option String} {g g' : G} (h : Pose sg q n g)
    (h' : Pose sg q n g') : g = g' := by
  refine pose_induction (P := fun n g => ∀ g', Pose sg q n g' → g = g') ?_ ?_ h _ h'
  clear h h' g g' n
  · intro n hn g' h'
    rcases pose_cases h' with ⟨-, rfl⟩ | ⟨m, _, _, _, rfl, hm, -⟩
    · rfl
    · exact absurd hn (not_global hm)
  · intro m f l p hm hf hl _ ih g' h'
    rcases pose_cases h' with ⟨hg, -⟩ | ⟨m', f', l', p', e, _, hf', hl', hp', rfl⟩
    · exact absurd hg (not_global hm)
    · cases e
      rw [hf] at hf'
      cases hf'
      rw [ih p' hp', local_unique hl hl']

theorem global_iff (n : Option String) : global n = true ↔ IsGlobal n := by
  cases n <;> simp [global, IsGlobal]

/-- A correct table. -/
def HashOk (sg : SG G Q D) (q : Option Q) (hash : String → Option G) : Prop :=
  ∀ n g, n ≠ "" → hash n = some g → Pose sg q (some n) g

theorem absolute_sound {sg : SG G Q D} {q : Option Q} {hash : String → Option G} (hh : HashOk sg q hash)
    (k : Nat) : ∀ n g, tfAbsolute sg q hash k n = some g → Pose sg q n g := by
  induction k with
  | zero => intro n g h; simp [tfAbsolute] at h
  | succ k ih =>
      intro n g h
      cases n with
      | none => simp only [tfAbsolute, Option.some.injEq] at h; subst h; exact pose_global _ _ _ (.inl rfl)
      | some n =>
          simp only [tfAbsolute] at h
          by_cases hg : global (some n) = true
          · rw [if_pos hg, Option.some.injEq] at h
            subst h
            exact pose_global _ _ _ ((global_iff _).1 hg)
          · rw [if_neg hg] at h
            have hn : n ≠ "" := fun e => hg (by simp [global, e])
            cases hc : hash n with
            | some x => simp only [hc, Option.some.injEq] at h; subst h; exact hh n x hn hc
            | none =>
                simp only [hc, Option.bind_eq_some_iff] at h
                obtain ⟨f, hf, l, hl, h⟩ := h
                rw [tfLocal_iff] at hl
                cases hp : f.parent with
                | none =>
                    simp only [hp, Option.some.injEq] at h
                    subst h
                    have := pose_step sg q n f l 1 hn hf hl (pose_global _ _ _ (by rw [hp]; exact .inl rfl))
                    simpa using this
                | some p =>
                    simp only [hp, Option.map_eq_some_iff] at h
                    obtain ⟨g', h1, rfl⟩ := h
                    exact pose_step sg q n f l g' hn hf hl (by rw [hp]; exact ih _ _ h1)

theorem absolute_complete {sg : SG G Q D} {q : Option Q} {hash : String → Option G} (hh : HashOk sg q hash)
    {n : Option String} {g : G} (h : Pose sg q n g) : ∃ k, ∀ k' ≥ k, tfAbsolute sg q hash k' n = some g := by
  refine pose_induction (P := fun n g => ∃ k, ∀ k' ≥ k, tfAbsolute sg q hash k' n = some g) ?_ ?_ h
  · intro n hn
    refine ⟨1, fun k' hk => ?_⟩
    obtain ⟨j, rfl⟩ : ∃ j, k' = j + 1 := ⟨k' - 1, by omega⟩
    cases n with
    | none => rfl
    | some n => simp only [tfAbsolute]; rw [if_pos ((global_iff _).2 hn)]
  · intro m f l p hm hf hl hp ⟨k, ih⟩
    have hpose := pose_step sg q m f l p hm hf hl hp
    refine ⟨k + 1, fun k' hk => ?_⟩
    obtain ⟨j, rfl⟩ : ∃ j, k' = j + 1 := ⟨k' - 1, by omega⟩
    simp only [tfAbsolute]
    rw [if_neg (by simp [global, hm])]
    cases hc : hash m with
    | some x => rw [pose_unique (hh m x hm hc) hpose]
    | none =>
        simp only [hf, Option.bind_some, (tfLocal_iff q f l).2 hl]
        have ih := ih j (by omega)
        cases hpar : f.parent with
        | some p' => rw [hpar] at ih; simp [ih]
        | none =>
            have : p = 1 := by
              rw [hpar] at hp
              exact pose_unique hp (pose_global _ _ _ (.inl rfl))
            simp [this]

theorem hashOk_empty (sg : SG G Q D) (q : Option Q) : HashOk sg q fun _ => none := by
  intro n g _ h; simp at h

theorem find_put (l : List (String × Frame G Q D)) (n m : String) (f : Frame G Q D) :
    find (put l n f) m = if n = m then some f else find l m := by
  unfold put
  rw [find]
  by_cases h : n = m
  · rw [if_pos h, if_pos h]
  · rw [if_neg h, if_neg h]
    induction l with
    | nil => rfl
    | cons e l ih =>
        obtain ⟨x, e⟩ := e
        by_cases hx : x = n
        · rw [List.filter_cons_of_neg (by simp [hx]), ih, find, if_neg (by rw [hx]; exact h)]
        · rw [List.filter_cons_of_pos (by simp [hx]), find, find, ih]

/-! ### The property -/

/-- C159: the absolute pose is the product of the motions from the global frame. -/
theorem C159_absolute (sg : SG G Q D) (q : Option Q) (n : Option String) (g : G) :
    (∃ k, tfAbsolute sg q (fun _ => none) k n = some g) ↔ Pose sg q n g :=
  ⟨fun ⟨k, h⟩ => absolute_sound (hashOk_empty sg q) k n g h, fun h =>
    let ⟨k, hk⟩ := absolute_complete (hashOk_empty sg q) h
    ⟨k, hk k (Nat.le_refl k)⟩⟩

/-- C159: the relative pose is the one that leads from the pose of the parent to that of the child. -/
theorem C159_relative (sg : SG G Q D) (q : Option Q) (p c : Option String) (g : G) :
    (∃ k, tfRelative sg q k p c = some g) ↔
      ∃ gp gc, Pose sg q p gp ∧ Pose sg q c gc ∧ gp * g = gc := by
  constructor
  · rintro ⟨k, h⟩
    simp only [tfRelative, Option.bind_eq_some_iff, Option.map_eq_some_iff] at h
    obtain ⟨gp, h1, gc, h2, rfl⟩ := h
    exact ⟨gp, gc, absolute_sound (hashOk_empty sg q) k _ _ h1, absolute_sound (hashOk_empty sg q) k _ _ h2,
      by simp⟩
  · rintro ⟨gp, gc, h1, h2, rfl⟩
    obtain ⟨k1, e1⟩ := absolute_complete (hashOk_empty sg q) h1
    obtain ⟨k2, e2⟩ := absolute_complete (hashOk_empty sg q) h2
    refine ⟨max k1 k2, ?_⟩
    simp [tfRelative, e1 _ (Nat.le_max_left k1 k2), e2 _ (Nat.le_max_right k1 k2)]

theorem absMapLoop_spec {sg : SG G Q D} {q : Option Q} (l : List (String × Frame G Q D)) :
    ∀ hash, HashOk sg q hash → (∀ e ∈ l, e.1 ≠ "" ∧ ∃ g, Pose sg q (some e.1) g) →
    ∃ k, ∀ k' ≥ k, ∃ hash', absMapLoop sg q k' l hash = some hash' ∧ HashOk sg q hash' ∧
      (∀ e ∈ l, (hash' e.1).isSome) ∧ (∀ n, (hash n).isSome → (hash' n).isSome) ∧
      ∀ n, (hash' n).isSome → (hash n).isSome ∨ ∃ e ∈ l, e.1 = n := by
  induction l with
  | nil =>
      intro hash hh _
      exact ⟨0, fun k' _ => ⟨hash, rfl, hh, by simp, fun n h => h, fun n h => .inl h⟩⟩
  | cons e l ih =>
      obtain ⟨n, f⟩ := e
      intro hash hh hl
      obtain ⟨hn, g, hg⟩ := hl (n, f) (by simp)
      obtain ⟨k1, e1⟩ := absolute_complete hh hg
      have hh' : HashOk sg q fun m => if m = n then some g else hash m := by
        intro m x hm hx
        by_cases h : m = n
        · simp only [h, if_true, Option.some.injEq] at hx
          rw [h, ← hx]; exact hg
        · simp only [if_neg h] at hx
          exact hh m x hm hx
      obtain ⟨k2, e2⟩ := ih _ hh' fun e he => hl e (by simp [he])
      refine ⟨max k1 k2, fun k' hk => ?_⟩
      obtain ⟨hash', h1, h2, h3, h4, h5⟩ := e2 k' (Nat.le_trans (Nat.le_max_right _ _) hk)
      refine ⟨hash', ?_, h2, ?_, ?_, ?_⟩
      · simp only [absMapLoop, e1 k' (Nat.le_trans (Nat.le_max_left _ _) hk), Option.bind_some]
        exact h1
      · intro e he
        rcases List.mem_cons.1 he with rfl | he
        · exact h4 n (by simp)
        · exact h3 e he
      · intro m hm
        refine h4 m ?_
        by_cases h : m = n
        · simp [h]
        · simpa [h] using hm
      · intro m hm
        rcases h5 m hm with h | ⟨e, he, rfl⟩
        · by_cases e : m = n
          · exact .inr ⟨(n, f), by simp, e.symm⟩
          · left; simpa [e] using h
        · exact .inr ⟨e, by simp [he], rfl⟩

/-- C159: the table of absolute poses has the pose of each frame, in whatever order the frames are visited, and
nothing else. -/
theorem C159_map (sg : SG G Q D) (q : Option Q)
    (h : ∀ e ∈ sg.frames, e.1 ≠ "" ∧ ∃ g, Pose sg q (some e.1) g) :
    ∃ k, ∀ k' ≥ k, ∃ hash, absMap sg q k' = some hash ∧
      (∀ e ∈ sg.frames, ∃ g, hash e.1 = some g ∧ Pose sg q (some e.1) g) ∧
      ∀ n, (∀ e ∈ sg.frames, e.1 ≠ n) → hash n = none := by
  obtain ⟨k, hk⟩ := absMapLoop_spec sg.frames (fun _ => none) (hashOk_empty sg q) h
  refine ⟨k, fun k' hk' => ?_⟩
  obtain ⟨hash, h1, h2, h3, -, h5⟩ := hk k' hk'
  refine ⟨hash, h1, ?_, ?_⟩
  · intro e he
    obtain ⟨g, hg⟩ := Option.isSome_iff_exists.1 (h3 e he)
    exact ⟨g, hg, h2 e.1 g (h e he).1 hg⟩
  · intro n hn
    by_contra hc
    rcases h5 n (Option.isSome_iff_ne_none.2 hc) with h | ⟨e, he, e1⟩
    · simp at h
    · exact hn e he e1

/-- C159, partial: a fixed frame that is given another parent, not below itself, stays where it is, and so does
every other frame.  Missing: new parents below the frame. -/
theorem C159_reparent_partial (sg : SG G Q D) (q : Option Q) (np : Option String) (n : String) (f : Frame G Q D)
    (gp gn : G) (hn : n ≠ "") (hf : find sg.frames n = some f) (hfix : f.joint = none) (hp : Pose sg q np gp)
    (hg : Pose sg q (some n) gn) (hu : ∀ p, np = some p → ¬ Under sg n p) :
    ∃ k, ∀ k' ≥ k, ∃ sg', reparent sg q k' np n none = some sg' ∧ sg'.allowed = sg.allowed ∧
      (∃ f', find sg'.frames n = some f' ∧ f'.parent = np ∧ f'.joint = none ∧ f'.data = f.data) ∧
      (∀ m, m ≠ n → find sg'.frames m = find sg.frames m) ∧
      ∀ m g, Pose sg' q m g ↔ Pose sg q m g := by
  obtain ⟨k, hk⟩ : ∃ k, ∀ k' ≥ k, tfRelative sg q k' np (some n) = some (gp⁻¹ * gn) := by
    obtain ⟨k1, e1⟩ := absolute_complete (hashOk_empty sg q) hp
    obtain ⟨k2, e2⟩ := absolute_complete (hashOk_empty sg q) hg
    refine ⟨max k1 k2, fun k' hk => ?_⟩
    simp [tfRelative, e1 k' (Nat.le_trans (Nat.le_max_left _ _) hk), e2 k' (Nat.le_trans (Nat.le_max_right _ _) hk)]
  refine ⟨k, fun k' hk' => ?_⟩
  let f' : Frame G Q D := ⟨np, none, gp⁻¹ * gn, f.data⟩
  let sg' : SG G Q D := { sg with frames := put sg.frames n f' }
  have hfind : ∀ m, find sg'.frames m = if n = m then some f' else find sg.frames m := fun m => find_put _ _ _ _
  refine ⟨sg', ?_, rfl, ⟨f', by rw [hfind, if_pos rfl], rfl, rfl, rfl⟩, fun m hm => ?_, ?_⟩
  · simp only [reparent, hk k' hk', Option.bind_some, hf, hfix]
    rfl
  · rw [hfind, if_neg (Ne.symm hm)]
  · -- frames that are not below `n`
    have hA : ∀ {m : Option String} {g : G}, Pose sg q m g → (∀ p, m = some p → ¬ Under sg n p) → Pose sg' q m g := by
      intro m g h
      refine pose_induction (P := fun m g => (∀ p, m = some p → ¬ Under sg n p) → Pose sg' q m g) ?_ ?_ h
      · intro m hm _; exact pose_global _ _ _ hm
      · intro m f1 l p hm hf1 hl _ ih hnu
        have hmn : n ≠ m := by
          rintro rfl
          exact hnu n rfl .refl
        refine pose_step sg' q m f1 l p hm (by rw [hfind, if_neg hmn]; exact hf1) hl (ih ?_)
        intro p' hp' hun
        exact hnu m rfl (.step m p' f1 hf1 hp' hun)
    have hB : Pose sg' q (some n) gn := by
      have := pose_step sg' q n f' (gp⁻¹ * gn) gp hn (by rw [hfind, if_pos rfl]) (.inl ⟨rfl, rfl⟩) (hA hp hu)
      simpa using this
    intro m g
    constructor
    · intro h
      refine pose_induction (P := fun m g => Pose sg q m g) ?_ ?_ h
      · intro m hm; exact pose_global _ _ _ hm
      · intro m f1 l p hm hf1 hl hpose ih
        by_cases hmn : n = m
        · subst hmn
          rw [pose_unique (pose_step sg' q n f1 l p hm hf1 hl hpose) hB]
          exact hg
        · rw [hfind, if_neg hmn] at hf1
          exact pose_step sg q m f1 l p hm hf1 hl ih
    · intro h
      refine pose_induction (P := fun m g => Pose sg' q m g) ?_ ?_ h
      · intro m hm; exact pose_global _ _ _ hm
      · intro m f1 l p hm hf1 hl hpose ih
        by_cases hmn : n = m
        · subst hmn
          rw [pose_unique (pose_step sg q n f1 l p hm hf1 hl hpose) hg]
          exact hB
        · exact pose_step sg' q m f1 l p hm (by rw [hfind, if_neg hmn]; exact hf1) hl ih

theorem find_prefix (pre : String) (n : String) : ∀ l : List (String × Frame G Q D),
    find ((l.map (prefixFrame pre)).foldr (fun e l => put l e.1 e.2) []) (pre ++ n) =
      (find l n).map fun f => (prefixFrame pre (n, f)).2
  | [] => rfl
  | (m, f) :: l => by
      rw [List.map_cons, List.foldr_cons, find_put, find_prefix pre n l, find]
      by_cases h : m = n
      · subst h
        simp [prefixFrame]
      · have : (prefixFrame pre (m, f)).1 ≠ pre ++ n := by
          simp only [prefixFrame]
          intro e
          exact h (by simpa [String.ext_iff] using e)
        rw [if_neg this, if_neg h]

/-- C159: a copy with a prefix is the graph moved by the transform, all at once: the frame of the prefix is at the
transform, and each frame, under its new name, is where it was, relative to it. -/
theorem C159_prefix (sg : SG G Q D) (q : Option Q) (pre : String) (tf : G) (d : D) (hpre : pre ≠ "")
    (n : Option String) (g : G) (h : Pose sg q n g) (g' : G) :
    Pose (prefixSg pre sg none tf d) q (some (pre ++ n.getD "")) g' ↔ g' = tf * g := by
  have key : Pose (prefixSg pre sg none tf d) q (some (pre ++ n.getD "")) (tf * g) := by
    have hroot : Pose (prefixSg pre sg none tf d) q (some pre) tf := by
      have := pose_step (prefixSg pre sg none tf d) q pre ⟨none, none, tf, d⟩ tf 1 hpre
        (by simp only [prefixSg]; rw [find_put, if_pos rfl]) (.inl ⟨rfl, rfl⟩) (pose_global _ _ _ (.inl rfl))
      simpa using this
    refine pose_induction (P := fun n g => Pose (prefixSg pre sg none tf d) q (some (pre ++ n.getD "")) (tf * g))
      ?_ ?_ h
    · intro n hn
      rcases hn with rfl | rfl <;> simpa using hroot
    · intro m f l p hm hf hl _ ih
      have hne : pre ≠ pre ++ m := by
        intro e
        have h1 : pre.toList = pre.toList ++ m.toList := by
          rw [← String.toList_append, ← e]
        exact hm (String.toList_eq_nil_iff.1 (List.self_eq_append_right.1 h1))
      have := pose_step (prefixSg pre sg none tf d) q (pre ++ m) (prefixFrame pre (m, f)).2 l (tf * p)
        (by simp [hpre]) (by simp only [prefixSg]; rw [find_put, if_neg hne, find_prefix, hf]; rfl) hl (by
          cases hp : f.parent with
          | none => rw [hp] at ih; simpa [prefixFrame, hp] using ih
          | some x => rw [hp] at ih; simpa [prefixFrame, hp] using ih)
      simpa [mul_assoc] using this
  exact ⟨fun h' => pose_unique h' key, fun e => e ▸ key⟩

/-! ### Violations and examples -/

/-- A table with a block on it and a lid, which turns, on the block. -/
def desk : SG (Multiplicative ℤ) ℤ Nat :=
  ⟨[("lid", ⟨some "block", some fun q => .ofAdd q, .ofAdd 1, 3⟩), ("block", ⟨some "table", none, .ofAdd 5, 2⟩),
    ("shelf", ⟨some "", none, .ofAdd 40, 4⟩), ("table", ⟨none, none, .ofAdd 10, 1⟩)], [("lid", "block")]⟩

example : tfAbsolute desk (some 7) (fun _ => none) 9 (some "lid") = some (.ofAdd 23) := by decide +kernel
example : tfAbsolute desk none (fun _ => none) 9 (some "lid") = none := by decide +kernel
example : tfRelative desk (some 7) 9 (some "shelf") (some "lid") = some (.ofAdd (-17)) := by decide +kernel
example : ((absMap desk (some 7) 9).bind fun h => h "block") = some (.ofAdd 15) := by decide +kernel
example : ((reparent desk (some 7) 9 (some "shelf") "block" none).bind fun sg =>
    tfAbsolute sg (some 8) (fun _ => none) 9 (some "lid")) = some (.ofAdd 24) := by decide +kernel
example : tfAbsolute (prefixSg "left/" desk none (.ofAdd 100) 9) (some 7) (fun _ => none) 9 (some "left/lid") =
    some (.ofAdd 123) := by decide +kernel

/-- The hypotheses of the partial theorem hold when the block moves to the shelf. -/
example : Pose desk (some 7) (some "shelf") (.ofAdd 40) ∧ Pose desk (some 7) (some "block") (.ofAdd 15) ∧
    ¬ Under desk "block" "shelf" := by
  refine ⟨(C159_absolute _ _ _ _).1 ⟨9, by decide +kernel⟩, (C159_absolute _ _ _ _).1 ⟨9, by decide +kernel⟩, ?_⟩
  have : ∀ m, Under desk "block" m → m ≠ "shelf" ∧ m ≠ "" := by
    intro m h
    induction h with
    | refl => exact ⟨by decide, by decide⟩
    | step m p f hf hp _ ih =>
        constructor
        · rintro rfl
          have e : find desk.frames "shelf" = some ⟨some "", none, .ofAdd 40, 4⟩ := rfl
          rw [e] at hf
          cases hf
          cases hp
          exact ih.2 rfl
        · rintro rfl
          exact absurd hf (by simp [desk, find])
  exact fun h => (this _ h).1 rfl

/-- C159 fails: nothing stops a frame from being put on a frame above it, and then neither has a pose. -/
theorem C159_cycle_violates : ∃ (sg sg' : SG (Multiplicative ℤ) ℤ Nat) (g : Multiplicative ℤ),
    Pose sg none (some "table") g ∧ reparent sg none 9 (some "block") "table" none = some sg' ∧
      ∀ k, tfAbsolute sg' none (fun _ => none) k (some "table") = none ∧
        tfAbsolute sg' none (fun _ => none) k (some "block") = none := by
  refine ⟨desk, ⟨put desk.frames "table" ⟨some "block", none, .ofAdd (-5), 1⟩, desk.allowed⟩, .ofAdd 10,
    (C159_absolute _ _ _ _).1 ⟨9, by decide +kernel⟩, by rfl, ?_⟩
  intro k
  induction k with
  | zero => exact ⟨rfl, rfl⟩
  | succ k ih =>
      constructor
      · simp only [tfAbsolute]
        simp [global, find_put, tfLocal]
        exact ih.2
      · simp only [tfAbsolute]
        simp [global, find_put, tfLocal, desk, find]
        exact ih.1

/-- C159 fails: pairs that may touch are forgotten by copies with a prefix. -/
theorem C159_prefix_collisions_violates : ∃ (sg : SG (Multiplicative ℤ) ℤ Nat),
    ("lid", "block") ∈ sg.allowed ∧ ∀ pre root tf d, (prefixSg pre sg root tf d).allowed = [] :=
  ⟨desk, by decide +kernel, fun _ _ _ _ => rfl⟩

end Verif.LispSg
