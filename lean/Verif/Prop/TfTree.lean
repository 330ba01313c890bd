/-
C166: trees of transforms.
-/
import Verif.Model.TfTree
import Mathlib.Algebra.Group.Int.Defs

set_option linter.unusedSectionVars false

namespace Verif.TfTree

variable {G : Type} [Monoid G]

/-- The pose of a frame: the product of the transforms from the world down to it, at depth `n`. -/
inductive Pose (m : String → Option (Option String × G)) : String → Nat → G → Prop
  | root {f : String} {g : G} : m f = some (none, g) → Pose m f 0 g
  | child {f p : String} {n : Nat} {g t : G} : m f = some (some p, t) → Pose m p n g → Pose m f (n + 1) (g * t)

/-- What has been said about a frame: its parent and its transform. -/
def view (t : Tree G) (f : String) : Option (Option String × G) :=
  (lookup t.rel f).map fun x => (x.parent.map Name.str, x.tf)

/-- Trees made by inserting transforms and removing frames that are no parents. -/
inductive Made : Tree G → Prop
  | empty : Made empty
  | insert {t : Tree G} (x : Tag G) : Made t → Made (insert t x)
  | remove {t : Tree G} (f : String) : Made t → (∀ g x p, lookup t.rel g = some x → x.parent = some p → p.str ≠ f) →
      Made (remove t f)

theorem lookup_filter (l : List (String × Tag G)) (k f : String) :
    lookup (l.filter fun e => e.1 ≠ k) f = if f = k then none else lookup l f := by
  induction l with
  | nil => simp [lookup]
  | cons e l ih =>
    obtain ⟨a, x⟩ := e
    by_cases h : a = k
    · subst h
      have : (((a, x) :: l).filter fun e => e.1 ≠ a) = l.filter fun e => e.1 ≠ a := by simp
      rw [this, ih]
      by_cases h2 : f = a
      · simp [h2]
      · simp [lookup, h2, Ne.symm h2]
    · have : (((a, x) :: l).filter fun e => e.1 ≠ k) = (a, x) :: l.filter fun e => e.1 ≠ k := by simp [h]
      rw [this]
      simp only [lookup, ih]
      by_cases h2 : a = f
      · subst h2; simp [h]
      · simp [h2]

theorem lookup_mem {l : List (String × Tag G)} {f : String} {x : Tag G} (h : lookup l f = some x) : (f, x) ∈ l := by
  induction l with
  | nil => simp [lookup] at h
  | cons e l ih =>
    obtain ⟨a, y⟩ := e
    simp only [lookup] at h
    split_ifs at h with h1
    · simp at h; simp [h, h1]
    · exact List.mem_cons_of_mem _ (ih h)

theorem mem_lookup {l : List (String × Tag G)} {f : String} {x : Tag G} (h : (f, x) ∈ l) : lookup l f ≠ none := by
  induction l with
  | nil => simp at h
  | cons e l ih =>
    obtain ⟨a, y⟩ := e
    simp only [lookup]
    split_ifs with h1
    · simp
    · rcases List.mem_cons.1 h with h | h
      · simp at h; exact absurd h.1.symm h1
      · exact ih h

/-- Strings are held by one object. -/
def Uniq (s : List Name) : Prop := ∀ m ∈ s, ∀ n ∈ s, m.str = n.str → m = n

theorem intern_spec {s : List Name} (hs : Uniq s) (n : Name) :
    Uniq (intern s n).1 ∧ (intern s n).2 ∈ (intern s n).1 ∧ (intern s n).2.str = n.str ∧ ∀ m ∈ s, m ∈ (intern s n).1 := by
  unfold intern
  cases h : s.find? fun m => m.str = n.str with
  | some m =>
    refine ⟨hs, List.mem_of_find?_eq_some h, by simpa using List.find?_some h, fun _ h => h⟩
  | none =>
    rw [List.find?_eq_none] at h
    refine ⟨?_, by simp, rfl, fun m hm => List.mem_cons_of_mem _ hm⟩
    intro a ha b hb hab
    replace ha : a ∈ n :: s := ha
    replace hb : b ∈ n :: s := hb
    rcases List.mem_cons.1 ha with ea | ha' <;> rcases List.mem_cons.1 hb with eb | hb'
    · rw [ea, eb]
    · exact absurd (by simpa [ea] using hab.symm) (h b hb')
    · exact absurd (by simpa [eb] using hab) (h a ha')
    · exact hs a ha' b hb' hab

/-- If all objects are of a set with one object for each string, interning yields the object given. -/
theorem intern_same {s r : List Name} (hr : Uniq r) (hsr : ∀ m ∈ s, m ∈ r) {n : Name} (hn : n ∈ r) :
    (intern s n).2 = n ∧ ∀ m ∈ (intern s n).1, m ∈ r := by
  unfold intern
  cases h : s.find? fun m => m.str = n.str with
  | some m =>
    exact ⟨hr m (hsr m (List.mem_of_find?_eq_some h)) n hn (by simpa using List.find?_some h), hsr⟩
  | none =>
    refine ⟨rfl, fun m hm => ?_⟩
    rcases List.mem_cons.1 hm with rfl | hm
    · exact hn
    · exact hsr m hm

structure Inv (t : Tree G) : Prop where
  uniq : Uniq t.frames
  key : ∀ f x, (f, x) ∈ t.rel → x.child.str = f
  child : ∀ f x, (f, x) ∈ t.rel → x.child ∈ t.frames
  parent : ∀ f x p, (f, x) ∈ t.rel → x.parent = some p → p ∈ t.frames
  one : t.rel.Pairwise fun a b => a.1 ≠ b.1

theorem lookup_of_mem {t : Tree G} (hi : Inv t) {f : String} {x : Tag G} (h : (f, x) ∈ t.rel) :
    lookup t.rel f = some x := by
  have := hi.one
  revert this h
  induction t.rel with
  | nil => intro h; simp at h
  | cons e l ih =>
    obtain ⟨a, y⟩ := e
    intro h hp
    rw [List.pairwise_cons] at hp
    rcases List.mem_cons.1 h with h | h
    · simp at h; simp [lookup, h]
    · have : a ≠ f := hp.1 _ h
      simp [lookup, this, ih h hp.2]

theorem inv_insert {t : Tree G} (hi : Inv t) (x : Tag G) :
    Inv (insert t x) ∧ ∃ y, (insert t x).rel = (x.child.str, y) :: (t.rel.filter fun e => e.1 ≠ x.child.str) ∧
      y.parent.map Name.str = x.parent.map Name.str ∧ y.tf = x.tf ∧ y.child.str = x.child.str := by
  have main : ∀ (s : List Name) (par : Option Name), Uniq s → (∀ m ∈ t.frames, m ∈ s) → (∀ p, par = some p → p ∈ s) →
      par.map Name.str = x.parent.map Name.str →
      Inv (⟨((intern s x.child).2.str, ⟨par, x.tf, (intern s x.child).2⟩) ::
        t.rel.filter fun e => e.1 ≠ (intern s x.child).2.str, (intern s x.child).1⟩ : Tree G) ∧
      ∃ y, (((intern s x.child).2.str, ⟨par, x.tf, (intern s x.child).2⟩) ::
        t.rel.filter fun e => e.1 ≠ (intern s x.child).2.str) =
          (x.child.str, y) :: (t.rel.filter fun e => e.1 ≠ x.child.str) ∧
        y.parent.map Name.str = x.parent.map Name.str ∧ y.tf = x.tf ∧ y.child.str = x.child.str := by
    intro s par hs hts hp hps
    obtain ⟨h1, h2, h3, h4⟩ := intern_spec hs x.child
    refine ⟨⟨h1, ?_, ?_, ?_, ?_⟩, ⟨par, x.tf, (intern s x.child).2⟩, by rw [h3], hps, rfl, h3⟩
    · intro f y hm
      rcases List.mem_cons.1 hm with hm | hm
      · simp only [Prod.mk.injEq] at hm; rw [hm.1, hm.2]
      · exact hi.key f y (List.mem_filter.1 hm).1
    · intro f y hm
      rcases List.mem_cons.1 hm with hm | hm
      · simp only [Prod.mk.injEq] at hm; rw [hm.2]; exact h2
      · exact h4 _ (hts _ (hi.child f y (List.mem_filter.1 hm).1))
    · intro f y p hm hpp
      rcases List.mem_cons.1 hm with hm | hm
      · simp only [Prod.mk.injEq] at hm; rw [hm.2] at hpp; exact h4 _ (hp p hpp)
      · exact h4 _ (hts _ (hi.parent f y p (List.mem_filter.1 hm).1 hpp))
    · refine List.pairwise_cons.2 ⟨fun e he => ?_, hi.one.filter _⟩
      have := (List.mem_filter.1 he).2
      simp only [decide_eq_true_eq, ne_eq] at this
      exact fun hc => this hc.symm
  cases hx : x.parent with
  | none =>
    have := main t.frames none hi.uniq (fun _ h => h) (by simp) (by simp [hx])
    rw [hx] at this
    simpa only [insert, hx] using this
  | some p =>
    obtain ⟨h1, h2, h3, h4⟩ := intern_spec hi.uniq p
    have := main (intern t.frames p).1 (some (intern t.frames p).2) h1 h4 (by simp [h2]) (by simp [hx, h3])
    rw [hx] at this
    simpa only [insert, hx] using this

theorem inv_made {t : Tree G} (h : Made t) : Inv t := by
  induction h with
  | empty => exact ⟨by simp [Uniq, empty], by simp [empty], by simp [empty], by simp [empty], by simp [empty]⟩
  | insert x _ ih => exact (inv_insert ih x).1
  | remove f _ hc ih =>
    refine ⟨fun a ha b hb => ih.uniq a (List.mem_filter.1 ha).1 b (List.mem_filter.1 hb).1, ?_, ?_, ?_, ih.one.filter _⟩
    · intro g x hm
      exact ih.key g x (List.mem_filter.1 hm).1
    · intro g x hm
      have h1 := List.mem_filter.1 hm
      refine List.mem_filter.2 ⟨ih.child g x h1.1, ?_⟩
      rw [ih.key g x h1.1]
      exact h1.2
    · intro g x p hm hp
      have h1 := List.mem_filter.1 hm
      refine List.mem_filter.2 ⟨ih.parent g x p h1.1 hp, ?_⟩
      simpa using hc g x p (lookup_of_mem ih h1.1) hp

theorem find_eq {t : Tree G} (hi : Inv t) (f : String) : find t f = some (lookup t.rel f) := by
  unfold find
  cases h : lookup t.rel f with
  | none => rfl
  | some x => simp [hi.key f x (lookup_mem h)]

/-- What the tree of absolute transforms is on the way. -/
structure AbsInv (r a : Tree G) : Prop where
  inv : Inv a
  frames : ∀ m ∈ a.frames, m ∈ r.frames
  right : ∀ f x, lookup a.rel f = some x → x.parent = none ∧ x.child ∈ r.frames ∧ x.child.str = f ∧
    ∃ n, Pose (view r) f n x.tf

theorem absInv_empty (r : Tree G) : AbsInv r empty :=
  ⟨inv_made .empty, by simp [empty], by simp [empty, lookup]⟩

theorem pose_unique {m : String → Option (Option String × G)} {f : String} {n k : Nat} {g h : G} (h1 : Pose m f n g)
    (h2 : Pose m f k h) : n = k ∧ g = h := by
  induction h1 generalizing k h with
  | root e =>
    cases h2 with
    | root e2 => rw [e] at e2; simp at e2; exact ⟨rfl, e2⟩
    | child e2 _ => rw [e] at e2; simp at e2
  | child e _ ih =>
    cases h2 with
    | root e2 => rw [e] at e2; simp at e2
    | child e2 h3 =>
      rw [e] at e2
      simp only [Option.some.injEq, Prod.mk.injEq] at e2
      obtain ⟨rfl, rfl⟩ := e2
      obtain ⟨rfl, rfl⟩ := ih h3
      exact ⟨rfl, rfl⟩

theorem absInv_insert {r a : Tree G} (hr : Inv r) (ha : AbsInv r a) (x : Tag G) (hp : x.parent = none)
    (hc : x.child ∈ r.frames) (hpose : ∃ n, Pose (view r) x.child.str n x.tf) :
    AbsInv r (insert a x) ∧ lookup (insert a x).rel x.child.str = some x ∧
      ∀ f y, lookup a.rel f = some y → lookup (insert a x).rel f = some y := by
  obtain ⟨h1, h2⟩ := intern_same hr.uniq ha.frames hc
  have hrel : (insert a x).rel = (x.child.str, x) :: a.rel.filter fun e => e.1 ≠ x.child.str := by
    obtain ⟨pp, tt, cc⟩ := x
    simp only at hp h1
    subst hp
    simp only [insert, h1]
  have hlk : ∀ f, lookup (insert a x).rel f = if x.child.str = f then some x else lookup a.rel f := by
    intro f
    rw [hrel]
    simp only [lookup]
    rw [lookup_filter]
    split_ifs with h3 h4
    · rfl
    · exact absurd h4.symm h3
    · rfl
  refine ⟨⟨(inv_insert ha.inv x).1, ?_, ?_⟩, by simp [hlk], ?_⟩
  · have : (insert a x).frames = (intern a.frames x.child).1 := by simp only [insert, hp]
    rw [this]
    exact h2
  · intro f y hy
    rw [hlk] at hy
    split_ifs at hy with h3
    · simp only [Option.some.injEq] at hy
      subst hy; subst h3
      exact ⟨hp, hc, rfl, hpose⟩
    · exact ha.right f y hy
  · intro f y hy
    rw [hlk]
    split_ifs with h3
    · subst h3
      obtain ⟨y1, y2, y3, m, y4⟩ := ha.right _ _ hy
      obtain ⟨n, hn⟩ := hpose
      have e1 := (pose_unique y4 hn).2
      have e2 := hr.uniq _ y2 _ hc y3
      obtain ⟨pp, tt, cc⟩ := x
      obtain ⟨pp', tt', cc'⟩ := y
      simp_all
    · exact hy

theorem pose_view {m : String → Option (Option String × G)} {f : String} {n : Nat} {g : G} (h : Pose m f n g) :
    m f ≠ none := by
  cases h with
  | root e => simp [e]
  | child e _ => simp [e]

theorem view_some {t : Tree G} {f : String} {p : Option String} {g : G} (h : view t f = some (p, g)) :
    ∃ x, lookup t.rel f = some x ∧ x.parent.map Name.str = p ∧ x.tf = g := by
  unfold view at h
  rw [Option.map_eq_some_iff] at h
  obtain ⟨x, h1, h2⟩ := h
  simp only [Prod.mk.injEq] at h2
  exact ⟨x, h1, h2⟩

theorem absRec_pose {r : Tree G} (hr : Inv r) {f : String} {n : Nat} {g : G} (h : Pose (view r) f n g) :
    ∀ (k : Nat), n < k → ∀ a, AbsInv r a → ∃ a', absRec r k a f = some a' ∧ AbsInv r a' ∧
      (∃ x, lookup a'.rel f = some x) ∧ ∀ f y, lookup a.rel f = some y → lookup a'.rel f = some y := by
  induction h with
  | @root f g e =>
    intro k hk a ha
    obtain ⟨k, rfl⟩ : ∃ j, k = j + 1 := ⟨k - 1, by omega⟩
    cases hf : lookup a.rel f with
    | some x => exact ⟨a, by simp [absRec, find_eq ha.inv, hf], ha, ⟨x, hf⟩, fun _ _ h => h⟩
    | none =>
      obtain ⟨x, hx, hxp, hxt⟩ := view_some e
      have hxp' : x.parent = none := by simpa using hxp
      have hkey := hr.key f x (lookup_mem hx)
      obtain ⟨h1, h2, h3⟩ := absInv_insert hr ha x hxp' (hr.child f x (lookup_mem hx))
        ⟨0, by rw [hkey, hxt]; exact .root e⟩
      exact ⟨insert a x, by simp [absRec, find_eq ha.inv, find_eq hr, hf, hx, hxp'], h1, ⟨x, hkey ▸ h2⟩, h3⟩
  | @child f p n g t e hp ih =>
    intro k hk a ha
    obtain ⟨k, rfl⟩ : ∃ j, k = j + 1 := ⟨k - 1, by omega⟩
    cases hf : lookup a.rel f with
    | some x => exact ⟨a, by simp [absRec, find_eq ha.inv, hf], ha, ⟨x, hf⟩, fun _ _ h => h⟩
    | none =>
      obtain ⟨x, hx, hxp, hxt⟩ := view_some e
      rw [Option.map_eq_some_iff] at hxp
      obtain ⟨q, hq, rfl⟩ := hxp
      obtain ⟨a', h1, h2, ⟨y, hy⟩, h4⟩ := ih k (by omega) a ha
      obtain ⟨y1, y2, y3, m, y4⟩ := h2.right _ _ hy
      have hyg : y.tf = g := (pose_unique y4 hp).2
      have hyc : y.child = q := hr.uniq _ y2 _ (hr.parent f x q (lookup_mem hx) hq) y3
      have hkey := hr.key f x (lookup_mem hx)
      have hmul : mul y x = some ⟨none, g * t, x.child⟩ := by simp [mul, hyc, hq, y1, hyg, hxt]
      obtain ⟨h5, h6, h7⟩ := absInv_insert hr h2 ⟨none, g * t, x.child⟩ rfl (hr.child f x (lookup_mem hx))
        ⟨n + 1, by show Pose (view r) x.child.str (n + 1) (g * t); rw [hkey]; exact .child e hp⟩
      refine ⟨insert a' ⟨none, g * t, x.child⟩, ?_, h5, ⟨_, hkey ▸ h6⟩, fun f y h => h7 f y (h4 f y h)⟩
      simp [absRec, find_eq ha.inv, find_eq hr, find_eq h2.inv, hf, hx, hq, h1, hy, hmul]

/-- Where the recursion ends without error, the frame has a pose. -/
theorem absRec_sound {r : Tree G} (hr : Inv r) : ∀ (k : Nat) (a : Tree G) (f : String) (a' : Tree G), AbsInv r a →
    absRec r k a f = some a' → ∃ n g, Pose (view r) f n g := by
  intro k
  induction k with
  | zero => intro a f a' _ h; simp [absRec] at h
  | succ k ih =>
    intro a f a' ha h
    cases hf : lookup a.rel f with
    | some x =>
      obtain ⟨-, -, -, n, hn⟩ := ha.right f x hf
      exact ⟨n, _, hn⟩
    | none =>
      simp only [absRec, find_eq ha.inv, find_eq hr, hf] at h
      cases hx : lookup r.rel f with
      | none => simp [hx] at h
      | some x =>
        simp only [hx] at h
        cases hp : x.parent with
        | none => exact ⟨0, x.tf, .root (by simp [view, hx, hp])⟩
        | some p =>
          simp only [hp] at h
          cases hb : absRec r k a p.str with
          | none => simp [hb] at h
          | some b =>
            obtain ⟨n, g, hn⟩ := ih a p.str b ha hb
            exact ⟨n + 1, g * x.tf, .child (by simp [view, hx, hp]) hn⟩

theorem intern_str (s : List Name) (n : Name) : (intern s n).2.str = n.str := by
  unfold intern
  cases h : s.find? fun m => m.str = n.str with
  | some m => simpa using List.find?_some h
  | none => rfl

/-- Inserting a transform sets the parent and the transform of its child and leaves other frames as they are. -/
theorem C166_insert (t : Tree G) (x : Tag G) (f : String) :
    view (insert t x) f = if f = x.child.str then some (x.parent.map Name.str, x.tf) else view t f := by
  have main : ∀ (s : List Name) (par : Option Name), par.map Name.str = x.parent.map Name.str →
      view (⟨((intern s x.child).2.str, ⟨par, x.tf, (intern s x.child).2⟩) ::
        t.rel.filter fun e => e.1 ≠ (intern s x.child).2.str, (intern s x.child).1⟩ : Tree G) f =
      if f = x.child.str then some (x.parent.map Name.str, x.tf) else view t f := by
    intro s par hp
    unfold view
    simp only [lookup]
    rw [lookup_filter, intern_str]
    by_cases hf : f = x.child.str
    · simp [hf, hp]
    · simp [hf, Ne.symm hf]
  cases hx : x.parent with
  | none =>
    have := main t.frames none (by simp [hx])
    rw [hx] at this
    simpa only [insert, hx] using this
  | some p =>
    have := main (intern t.frames p).1 (some (intern t.frames p).2) (by simp [hx, intern_str])
    rw [hx] at this
    simpa only [insert, hx] using this

/-- Removing a frame removes what was said about it and nothing else. -/
theorem C166_remove (t : Tree G) (f g : String) : view (remove t f) g = if g = f then none else view t g := by
  unfold view remove
  simp only [lookup_filter]
  split_ifs <;> rfl

/-- For trees made by inserting transforms, under names held by whatever objects, and removing frames that are no
parents, the absolute transform of a frame is the product of the transforms from the world down to it: it is computed
whenever the frame has a pose, and it is an error otherwise. -/
theorem C166_absolute_partial (t : Tree G) (h : Made t) (f : String) :
    (∀ n g, Pose (view t) f n g → ∀ k > n, ∃ c, c.str = f ∧ absTf t k f = some (some ⟨none, g, c⟩)) ∧
    ((¬ ∃ n g, Pose (view t) f n g) → ∀ k, absTf t k f = none) := by
  have hi := inv_made h
  constructor
  · intro n g hp k hk
    obtain ⟨a, h1, h2, ⟨x, hx⟩, -⟩ := absRec_pose hi hp k hk empty (absInv_empty t)
    obtain ⟨x1, x2, x3, m, x4⟩ := h2.right f x hx
    have := (pose_unique x4 hp).2
    refine ⟨x.child, x3, ?_⟩
    simp only [absTf, h1, Option.bind_some, find_eq h2.inv, hx, ← this, ← x1]
  · intro hn k
    unfold absTf
    cases ha : absRec t k empty f with
    | none => rfl
    | some a => exact absurd (absRec_sound hi k empty f a (absInv_empty t) ha) hn

/-- The map of all absolute transforms holds that of each frame, if all frames have poses. -/
theorem C166_map_partial (t : Tree G) (h : Made t) (d : Nat)
    (hp : ∀ f, view t f ≠ none → ∃ n g, n < d ∧ Pose (view t) f n g) :
    ∃ a, absMap t d = some a ∧ ∀ f, (view t f = none → view a f = none) ∧
      ∀ n g, Pose (view t) f n g → view a f = some (none, g) := by
  have hi := inv_made h
  have key : ∀ l : List (String × Tag G), (∀ e ∈ l, e ∈ t.rel) → ∀ a, AbsInv t a → ∃ a', absFold t d l a = some a' ∧
      AbsInv t a' ∧ (∀ e ∈ l, ∃ x, lookup a'.rel e.1 = some x) ∧
      ∀ f y, lookup a.rel f = some y → lookup a'.rel f = some y := by
    intro l
    induction l with
    | nil => intro _ a ha; exact ⟨a, rfl, ha, by simp, fun _ _ h => h⟩
    | cons e l ih =>
      obtain ⟨f, x⟩ := e
      intro hl a ha
      have hm := hl (f, x) (by simp)
      have hv : view t f ≠ none := by simpa [view] using mem_lookup hm
      obtain ⟨n, g, hn, hg⟩ := hp f hv
      obtain ⟨b, h1, h2, h3, h4⟩ := absRec_pose hi hg d hn a ha
      obtain ⟨c, h5, h6, h7, h8⟩ := ih (fun e he => hl e (by simp [he])) b h2
      refine ⟨c, by simp [absFold, hi.key f x hm, h1, h5], h6, ?_, fun f y h => h8 f y (h4 f y h)⟩
      intro e he
      rcases List.mem_cons.1 he with rfl | he
      · obtain ⟨y, hy⟩ := h3; exact ⟨y, h8 _ _ hy⟩
      · exact h7 e he
  obtain ⟨a, h1, h2, h3, -⟩ := key t.rel (fun _ h => h) empty (absInv_empty t)
  refine ⟨a, h1, fun f => ⟨fun hv => ?_, fun n g hg => ?_⟩⟩
  · cases hx : lookup a.rel f with
    | none => simp [view, hx]
    | some x =>
      obtain ⟨-, -, -, n, hn⟩ := h2.right f x hx
      exact absurd hv (pose_view hn)
  · have : ∃ x, lookup t.rel f = some x := by
      cases hg with
      | root e => obtain ⟨x, hx, _⟩ := view_some e; exact ⟨x, hx⟩
      | child e _ => obtain ⟨x, hx, _⟩ := view_some e; exact ⟨x, hx⟩
    obtain ⟨x, hx⟩ := this
    obtain ⟨y, hy⟩ := h3 _ (lookup_mem hx)
    obtain ⟨y1, -, -, m, y4⟩ := h2.right f y hy
    simp [view, hy, y1, (pose_unique y4 hg).2]

/-- A frame below another, under names given as different strings each time. -/
def sample : Tree (ℤ) :=
  insert (insert empty ⟨some ⟨"arm", 1⟩, 3, ⟨"hand", 2⟩⟩) ⟨none, 4, ⟨"arm", 3⟩⟩

example : Made sample := .insert _ (.insert _ .empty)
example : Pose (view sample) "hand" 1 (4 * 3) := .child (p := "arm") rfl (.root rfl)
example : (absTf sample 2 "hand").map (fun x => x.map fun x => x.tf) = some (some (12)) := by decide +kernel
example : ∃ n g, n < 2 ∧ Pose (view sample) "arm" n g := ⟨0, 4, by decide, .root rfl⟩

/-- Removing a parent and inserting it again under an equal name breaks its children: their poses are an error, though
the tree says all about them that it said before. -/
theorem C166_remove_violates : ∃ t u : Tree (ℤ), Made t ∧
    u = insert (remove t "arm") ⟨none, 4, ⟨"arm", 9⟩⟩ ∧ (∀ f, view u f = view t f) ∧
    Pose (view u) "hand" 1 (4 * 3) ∧ ∀ k, absTf u k "hand" = none := by
  refine ⟨sample, _, .insert _ (.insert _ .empty), rfl, fun f => ?_, .child (p := "arm") rfl (.root rfl), fun k => ?_⟩
  · by_cases h1 : f = "arm"
    · subst h1; rfl
    · by_cases h2 : f = "hand"
      · subst h2; rfl
      · have h1' : ¬ "arm" = f := fun h => h1 h.symm
        have h2' : ¬ "hand" = f := fun h => h2 h.symm
        have e1 : view sample f = none := by
          show (lookup [("arm", _), ("hand", _)] f).map _ = none
          simp [lookup, h1', h2']
        rw [e1]
        show (lookup [("arm", _), ("hand", _)] f).map _ = none
        simp [lookup, h1', h2']
  · match k with
    | 0 => rfl
    | 1 => rfl
    | k + 2 => rfl

/-- The product of tagged transforms tells equal names apart. -/
theorem C166_mul_violates : ∃ a b : Tag (ℤ), some a.child.str = b.parent.map Name.str ∧ mul a b = none :=
  ⟨⟨none, 1, ⟨"arm", 1⟩⟩, ⟨some ⟨"arm", 2⟩, 2, ⟨"hand", 3⟩⟩, rfl, rfl⟩

end Verif.TfTree
