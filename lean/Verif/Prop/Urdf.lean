/-
C161: scene graphs from URDF files.
-/
import Verif.Model.Urdf
import Verif.Prop.LispSg
import Mathlib.Data.List.Nodup
import Mathlib.Algebra.Field.Rat
import Mathlib.Tactic.Linarith

namespace Verif.Urdf

open Verif.LispSg

set_option linter.unusedSectionVars false

variable {G K A M : Type} [Group G] [DecidableEq G] [Field K]

/-! ### Specification -/

/-- The motion of a joint of URDF at the configuration `q`. -/
inductive Motion (mot : Bool → A → K → G) (q : String → K) (j : UJoint G K A) : G → Prop
  | fixed : j.type = .fixed → Motion mot q j 1
  | turn (a : A) : j.type = .revolute ∨ j.type = .continuous → j.axis = some a → Motion mot q j (mot true a (q j.name))
  | slide (a : A) : j.type = .prismatic → j.axis = some a → Motion mot q j (mot false a (q j.name))

/-- The pose of a link of URDF: links that no joint leads to are at the global frame; the frame of another link is
the frame of its parent link, moved by the origin and then by the motion of the joint. -/
inductive LinkPose (mot : Bool → A → K → G) (js : List (UJoint G K A)) (q : String → K) : String → G → Prop
  | root (l : String) : (∀ j ∈ js, j.child ≠ l) → LinkPose mot js q l 1
  | child (j : UJoint G K A) (g m : G) : j ∈ js → Motion mot q j m → LinkPose mot js q j.parent g →
      LinkPose mot js q j.child (g * j.origin * m)

/-- Where the middle of a shape of URDF, which is at its origin, is relative to the frame of scene geometry:
cylinders stand on theirs. -/
def middle (tz : K → G) : SShape K → G
  | .cylinder h _ => tz (h / 2)
  | _ => 1

/-- The shape is that of the node; meshes are scaled alike along all axes. -/
def SameShape : Shape K → SShape K → Prop
  | .mesh f sx sy sz, .mesh f' c => f = f' ∧ sx = c ∧ sy = c ∧ sz = c
  | .box x y z, .box x' y' z' => x = x' ∧ y = y' ∧ z = z'
  | .sphere r, .sphere r' => r = r'
  | .cylinder h r, .cylinder h' r' => h = h' ∧ r = r'
  | _, _ => False

/-- The visual nodes of a link, or its collision nodes. -/
def nodes (l : ULink G K M) (vis : Bool) : List (UGeom G K M) := if vis then l.visuals else l.collisions

/-- The scene geometry `x` at the frame `n` is the shape `s` of the node `v`: the middle of the shape is at the origin of
the node, relative to the link, at every configuration. -/
structure Shown (mot : Bool → A → K → G) (tz : K → G) (js : List (UJoint G K A)) (st : List (String × UFrame G K M))
    (l : ULink G K M) (vis : Bool) (v : UGeom G K M) (s : Shape K) (n : String) (x : SGeom K M) : Prop where
  shape : SameShape s x.shape
  visual : x.visual = vis
  collision : x.collision = !vis
  material : vis = true → x.material = v.material
  pose : ∀ q g, LinkPose mot js q l.name g →
    ∃ p, Pose ⟨st, []⟩ (some q) (some n) p ∧ p * middle tz x.shape = g * v.origin

/-- Joints that can be loaded: with an axis, unless fixed, and both limits of the position or none. -/
def Supported (j : UJoint G K A) : Prop :=
  (j.type = .fixed ∨ ((j.type = .revolute ∨ j.type = .continuous ∨ j.type = .prismatic) ∧ j.axis ≠ none)) ∧
  (j.lower = none ↔ j.upper = none) ∧ j.parent ≠ j.child ∧ j.name ≠ ""

/-! ### Lemmas on scene graphs -/

/-- Every frame is still there, at the same place of the tree. -/
def Keeps {D : Type} (a b : List (String × Frame G (String → K) D)) : Prop :=
  ∀ m f, find a m = some f → ∃ f', find b m = some f' ∧ f'.parent = f.parent ∧ f'.joint = f.joint ∧ f'.tf = f.tf

theorem pose_keeps {D : Type} {a b : List (String × Frame G (String → K) D)} (h : Keeps a b) {q : Option (String → K)}
    {n : Option String} {g : G} (hp : Pose ⟨a, []⟩ q n g) : Pose ⟨b, []⟩ q n g := by
  refine pose_induction (P := fun n g => Pose ⟨b, []⟩ q n g) ?_ ?_ hp
  · intro n hn; exact pose_global _ _ _ hn
  · intro m f l p hm hf hl _ ih
    obtain ⟨f', h1, h2, h3, h4⟩ := h m f hf
    refine pose_step _ q m f' l p hm h1 ?_ (by rw [h2]; exact ih)
    unfold Local at hl ⊢
    rw [h3, h4]
    exact hl

theorem find_foldl {D : Type} : ∀ (l acc : List (String × Frame G (String → K) D)), (l.map Prod.fst).Nodup →
    (∀ e ∈ l, find (l.foldl (fun st e => put st e.1 e.2) acc) e.1 = some e.2) ∧
      ∀ n, (∀ e ∈ l, e.1 ≠ n) → find (l.foldl (fun st e => put st e.1 e.2) acc) n = find acc n
  | [], acc, _ => ⟨by simp, fun _ _ => rfl⟩
  | x :: l, acc, h => by
      rw [List.map_cons, List.nodup_cons] at h
      obtain ⟨h1, h2⟩ := find_foldl l (put acc x.1 x.2) h.2
      have hx : ∀ e ∈ l, e.1 ≠ x.1 := fun e he q => h.1 (q ▸ List.mem_map_of_mem he)
      refine ⟨fun e he => ?_, fun n hn => ?_⟩
      · rcases List.mem_cons.1 he with rfl | he
        · rw [List.foldl_cons, h2 _ hx, find_put, if_pos rfl]
        · exact h1 e he
      · rw [List.foldl_cons, h2 n fun e he => hn e (by simp [he]), find_put, if_neg (hn x (by simp))]

/-! ### Lemmas on joints -/

theorem parentMap_aux : ∀ (js : List (UJoint G K A)) (m : String → Option String), (js.map UJoint.child).Nodup →
    (∀ j ∈ js, js.foldl (fun m j l => if l = j.child then some j.name else m l) m j.child = some j.name) ∧
      ∀ l, (∀ j ∈ js, j.child ≠ l) → js.foldl (fun m j l => if l = j.child then some j.name else m l) m l = m l
  | [], m, _ => ⟨by simp, fun _ _ => rfl⟩
  | x :: js, m, h => by
      rw [List.map_cons, List.nodup_cons] at h
      obtain ⟨h1, h2⟩ := parentMap_aux js (fun l => if l = x.child then some x.name else m l) h.2
      have hx : ∀ j ∈ js, j.child ≠ x.child := fun j hj q => h.1 (q ▸ List.mem_map_of_mem hj)
      refine ⟨fun j hj => ?_, fun l hl => ?_⟩
      · rcases List.mem_cons.1 hj with rfl | hj
        · rw [List.foldl_cons, h2 _ hx, if_pos rfl]
        · exact h1 j hj
      · rw [List.foldl_cons, h2 l fun j hj => hl j (by simp [hj]), if_neg (hl x (by simp)).symm]

theorem parentMap_child {js : List (UJoint G K A)} (h : (js.map UJoint.child).Nodup) {j : UJoint G K A} (hj : j ∈ js) :
    parentMap js j.child = some j.name := (parentMap_aux js _ h).1 j hj

theorem parentMap_root {js : List (UJoint G K A)} (h : (js.map UJoint.child).Nodup) {l : String}
    (hl : ∀ j ∈ js, j.child ≠ l) : parentMap js l = none := (parentMap_aux js _ h).2 l hl

theorem parentMap_some {js : List (UJoint G K A)} (h : (js.map UJoint.child).Nodup) {l n : String}
    (hl : parentMap js l = some n) : ∃ j ∈ js, j.child = l ∧ j.name = n := by
  by_cases hx : ∃ j ∈ js, j.child = l
  · obtain ⟨j, hj, rfl⟩ := hx
    rw [parentMap_child h hj] at hl
    exact ⟨j, hj, rfl, Option.some.inj hl⟩
  · rw [parentMap_root h fun j hj q => hx ⟨j, hj, q⟩] at hl
    simp at hl

theorem allSome_spec {α β : Type} (f : α → Option β) (P : α → β → Prop) : ∀ l : List α,
    (∀ x ∈ l, ∃ y, f x = some y ∧ P x y) → ∃ r, allSome (l.map f) = some r ∧ List.Forall₂ P l r
  | [], _ => ⟨[], rfl, .nil⟩
  | x :: l, h => by
      obtain ⟨y, h1, h2⟩ := h x (by simp)
      obtain ⟨r, h3, h4⟩ := allSome_spec f P l fun z hz => h z (by simp [hz])
      exact ⟨y :: r, by simp [allSome, h1, h3], .cons h2 h4⟩

theorem jointLimits_some {j : UJoint G K A} (h : j.lower = none ↔ j.upper = none) : ∃ l, jointLimits j = some l := by
  unfold jointLimits
  cases hl : j.lower <;> cases hu : j.upper <;> cases j.velocity <;> cases j.effort <;>
    simp_all [jointLimit]

/-- What a frame of a joint is. -/
def FrameOf (mot : Bool → A → K → G) (pm : String → Option String) (j : UJoint G K A)
    (e : String × UFrame G K M) : Prop :=
  e.1 = j.name ∧ e.2.parent = pm j.parent ∧ e.2.data.geoms = [] ∧ e.2.tf = j.origin ∧
    ∀ (q : String → K) m, Motion mot q j m → Local (some q) e.2 (j.origin * m)

theorem createFrame_spec {mot : Bool → A → K → G} {pm : String → Option String} {j : UJoint G K A}
    (h : Supported j) (hp : pm j.parent ≠ some j.name) :
    ∃ e : String × UFrame G K M, createFrame mot pm j = some e ∧ FrameOf mot pm j e := by
  obtain ⟨lim, hlim⟩ := jointLimits_some h.2.1
  simp only [createFrame, hlim, Option.bind_some, if_neg hp]
  rcases h.1 with ht | ⟨ht, ha⟩
  · rw [ht]
    refine ⟨_, rfl, rfl, rfl, rfl, rfl, fun q m hm => ?_⟩
    cases hm with
    | fixed _ => exact .inl ⟨rfl, by simp⟩
    | turn a h' _ => rw [ht] at h'; simp at h'
    | slide a h' _ => rw [ht] at h'; simp at h'
  · obtain ⟨a, ha⟩ := Option.ne_none_iff_exists'.1 ha
    rcases ht with ht | ht | ht
    all_goals
      rw [ht]
      simp only [ha, Option.map_some]
      refine ⟨_, rfl, rfl, rfl, rfl, rfl, fun q m hm => ?_⟩
      cases hm with
      | fixed h' => rw [ht] at h'; simp at h'
      | turn b h' hb =>
          first
            | (rw [ht] at h'; simp at h'; done)
            | (rw [ha] at hb; cases hb; exact .inr ⟨_, q, rfl, rfl, rfl⟩)
      | slide b h' hb =>
          first
            | (rw [ht] at h'; simp at h'; done)
            | (rw [ha] at hb; cases hb; exact .inr ⟨_, q, rfl, rfl, rfl⟩)

theorem forall₂_mem_left {α β : Type} {R : α → β → Prop} : ∀ {l : List α} {r : List β}, List.Forall₂ R l r →
    ∀ x ∈ l, ∃ y ∈ r, R x y
  | _, _, .nil, x, h => by simp at h
  | _, _, .cons (a := a) (b := b) h t, x, hx => by
      rcases List.mem_cons.1 hx with rfl | hx
      · exact ⟨b, by simp, h⟩
      · obtain ⟨y, hy, r⟩ := forall₂_mem_left t x hx
        exact ⟨y, by simp [hy], r⟩

theorem forall₂_mem_right {α β : Type} {R : α → β → Prop} : ∀ {l : List α} {r : List β}, List.Forall₂ R l r →
    ∀ y ∈ r, ∃ x ∈ l, R x y
  | _, _, .nil, x, h => by simp at h
  | _, _, .cons (a := a) (b := b) h t, y, hy => by
      rcases List.mem_cons.1 hy with rfl | hy
      · exact ⟨a, by simp, h⟩
      · obtain ⟨x, hx, r⟩ := forall₂_mem_right t y hy
        exact ⟨x, by simp [hx], r⟩

theorem names_eq {mot : Bool → A → K → G} {pm : String → Option String} : ∀ {js : List (UJoint G K A)}
    {r : List (String × UFrame G K M)}, List.Forall₂ (FrameOf mot pm) js r → r.map Prod.fst = js.map UJoint.name
  | _, _, .nil => rfl
  | _, _, .cons h t => by rw [List.map_cons, List.map_cons, h.1, names_eq t]

/-- A well-formed robot: names of joints differ, and no link is the child of two joints. -/
structure Tree (js : List (UJoint G K A)) : Prop where
  names : (js.map UJoint.name).Nodup
  children : (js.map UJoint.child).Nodup
  supported : ∀ j ∈ js, Supported j

theorem jointFrames_spec {mot : Bool → A → K → G} {js : List (UJoint G K A)} (h : Tree js) :
    ∃ st : List (String × UFrame G K M), jointFrames mot js = some st ∧
      (∀ j ∈ js, ∃ f, find st j.name = some f ∧ FrameOf mot (parentMap js) j (j.name, f)) ∧
      ∀ n f, find st n = some f → ∃ j ∈ js, j.name = n ∧ f.data.geoms = [] := by
  obtain ⟨r, h1, h2⟩ := allSome_spec (createFrame (M := M) mot (parentMap js)) (FrameOf mot (parentMap js)) js
    fun j hj => createFrame_spec (h.supported j hj) fun e => by
      obtain ⟨j', hj', e1, e2⟩ := parentMap_some h.children e
      have : j' = j := List.inj_on_of_nodup_map h.names hj' hj e2
      subst this
      exact (h.supported j' hj).2.2.1 e1.symm
  have hr := names_eq h2
  obtain ⟨f1, f2⟩ := find_foldl r [] (by rw [hr]; exact h.names)
  refine ⟨_, by rw [jointFrames, h1]; rfl, fun j hj => ?_, fun n f hf => ?_⟩
  · obtain ⟨⟨n, f⟩, he, hx⟩ := forall₂_mem_left h2 j hj
    obtain rfl : n = j.name := hx.1
    exact ⟨f, f1 _ he, hx⟩
  · by_cases hx : ∃ e ∈ r, e.1 = n
    · obtain ⟨e, he, rfl⟩ := hx
      rw [f1 e he] at hf
      cases hf
      obtain ⟨j, hj, hfr⟩ := forall₂_mem_right h2 e he
      exact ⟨j, hj, hfr.1.symm, hfr.2.2.1⟩
    · rw [f2 n fun e he q => hx ⟨e, he, q⟩] at hf
      simp [find] at hf

theorem linkPose_pose {mot : Bool → A → K → G} {js : List (UJoint G K A)} (h : Tree js)
    {st : List (String × UFrame G K M)}
    (hs : ∀ j ∈ js, ∃ f, find st j.name = some f ∧ FrameOf mot (parentMap js) j (j.name, f)) {q : String → K}
    {l : String} {g : G} (hl : LinkPose mot js q l g) : Pose ⟨st, []⟩ (some q) (parentMap js l) g := by
  induction hl with
  | root l hl => rw [parentMap_root h.children hl]; exact pose_global _ _ _ (.inl rfl)
  | child j g m hj hm _ ih =>
      obtain ⟨f, hf, -, h1, -, -, h2⟩ := hs j hj
      rw [parentMap_child h.children hj, mul_assoc]
      exact pose_step _ _ _ f _ g (h.supported j hj).2.2.2 hf (h2 q m hm) (by rw [show f.parent = _ from h1]; exact ih)

/-! ### Lemmas on links -/

/-- The node needs a frame of its own. -/
def Own (tz : K → G) (pm : String → Option String) (a : Item G K M) : Prop :=
  pm a.link = none ∨ a.origin * offset tz a.payload ≠ 1

/-- The geometry of a node. -/
def Item.geoms (a : Item G K M) : List (Option (SGeom K M)) :=
  match a.payload with
  | .geom g => [g]
  | .inertial _ _ => []

/-- The frame of a node. -/
def Placed (tz : K → G) (pm : String → Option String) (st : List (String × UFrame G K M)) (a : Item G K M)
    (n : String) (f : UFrame G K M) : Prop :=
  find st n = some f ∧ ((∃ x ∈ a.geoms, x ∈ f.data.geoms) ∨ a.geoms = []) ∧
    ((pm a.link = some n ∧ a.origin * offset tz a.payload = 1) ∨
      (n ≠ "" ∧ f.parent = pm a.link ∧ f.joint = none ∧ f.tf = a.origin * offset tz a.payload))

theorem newName_ne (a : Item G K M) : a.newName ≠ "" := by
  intro h
  have : a.newName.length = 0 := by rw [h]; rfl
  simp [Item.newName, String.length_append] at this

/-- What one node does. -/
theorem bindItem_spec (tz : K → G) (pm : String → Option String) (st : List (String × UFrame G K M))
    (a : Item G K M) (h1 : ∀ n, pm a.link = some n → (find st n).isSome)
    (h2 : Own tz pm a → find st a.newName = none) :
    ∃ st', bindItem tz pm st a = some st' ∧ Keeps st st' ∧
      (∃ n f, Placed tz pm st' a n f ∧ (n = a.newName ∨ pm a.link = some n) ∧
        ∀ m f', find st' m = some f' → ∀ x ∈ f'.data.geoms,
          (∃ f0, find st m = some f0 ∧ x ∈ f0.data.geoms) ∨ (m = n ∧ x ∈ a.geoms)) ∧
      (∀ m f, find st m = some f → ∃ f', find st' m = some f' ∧ ∀ x ∈ f.data.geoms, x ∈ f'.data.geoms) ∧
      (∀ m, find st' m ≠ none → find st m ≠ none ∨ (m = a.newName ∧ Own tz pm a)) := by
  have hpay : ∀ d : Data K M, (∀ x ∈ d.geoms, x ∈ (addPayload a.payload d).geoms) ∧
      (∀ x ∈ (addPayload a.payload d).geoms, x ∈ d.geoms ∨ x ∈ a.geoms) ∧
      ((∃ x ∈ a.geoms, x ∈ (addPayload a.payload d).geoms) ∨ a.geoms = []) := by
    intro d
    cases hp : a.payload with
    | geom g => simp [addPayload, Item.geoms, hp]; tauto
    | inertial m i => simp [addPayload, Item.geoms, hp]
  by_cases hown : Own tz pm a
  · -- a new frame
    have hfresh := h2 hown
    let f0 : UFrame G K M := ⟨pm a.link, none, a.origin * offset tz a.payload, ⟨[], none, none⟩⟩
    let f1 : UFrame G K M := { f0 with data := addPayload a.payload f0.data }
    have hno : nodeOrigin tz pm st a = (put st a.newName f0, a.newName) := by
      unfold nodeOrigin
      cases hp : pm a.link with
      | none => simp [f0, hp]
      | some n =>
          rcases hown with h | h
          · rw [hp] at h; simp at h
          · simp [f0, hp, h]
    have hfind : ∀ m, find (put (put st a.newName f0) a.newName f1) m =
        if a.newName = m then some f1 else find st m := by
      intro m
      rw [find_put, find_put]
      by_cases h : a.newName = m <;> simp [h]
    refine ⟨put (put st a.newName f0) a.newName f1, ?_, ?_, ⟨a.newName, f1, ?_, .inl rfl, ?_⟩, ?_, ?_⟩
    · simp only [bindItem, hno]
      rw [find_put, if_pos rfl]
      rfl
    · intro m f hf
      have : a.newName ≠ m := by rintro rfl; rw [hfresh] at hf; simp at hf
      exact ⟨f, by rw [hfind, if_neg this]; exact hf, rfl, rfl, rfl⟩
    · refine ⟨by rw [hfind, if_pos rfl], (hpay f0.data).2.2, .inr ⟨newName_ne a, rfl, rfl, rfl⟩⟩
    · intro m f' hf' x hx
      rw [hfind] at hf'
      by_cases h : a.newName = m
      · rw [if_pos h] at hf'
        cases hf'
        rcases (hpay f0.data).2.1 x hx with h' | h'
        · simp [f0] at h'
        · exact .inr ⟨h.symm, h'⟩
      · rw [if_neg h] at hf'
        exact .inl ⟨f', hf', hx⟩
    · intro m f hf
      have : a.newName ≠ m := by rintro rfl; rw [hfresh] at hf; simp at hf
      exact ⟨f, by rw [hfind, if_neg this]; exact hf, fun x hx => hx⟩
    · intro m hm
      rw [hfind] at hm
      by_cases h : a.newName = m
      · exact .inr ⟨h.symm, hown⟩
      · rw [if_neg h] at hm; exact .inl hm
  · -- the frame of the joint
    have hid : a.origin * offset tz a.payload = 1 := by
      by_contra h
      exact hown (.inr h)
    obtain ⟨n, hn⟩ : ∃ n, pm a.link = some n := by
      cases hp : pm a.link with
      | none => exact absurd (.inl hp) hown
      | some n => exact ⟨n, rfl⟩
    obtain ⟨f0, hf0⟩ := Option.isSome_iff_exists.1 (h1 n hn)
    let f1 : UFrame G K M := { f0 with data := addPayload a.payload f0.data }
    have hno : nodeOrigin tz pm st a = (st, n) := by
      unfold nodeOrigin
      simp [hn, hid]
    have hfind : ∀ m, find (put st n f1) m = if n = m then some f1 else find st m := fun m => find_put _ _ _ _
    refine ⟨put st n f1, ?_, ?_, ⟨n, f1, ?_, .inr hn, ?_⟩, ?_, ?_⟩
    · simp only [bindItem, hno, hf0]
      rfl
    · intro m f hf
      by_cases h : n = m
      · subst h
        rw [hf0] at hf
        cases hf
        exact ⟨f1, by rw [hfind, if_pos rfl], rfl, rfl, rfl⟩
      · exact ⟨f, by rw [hfind, if_neg h]; exact hf, rfl, rfl, rfl⟩
    · exact ⟨by rw [hfind, if_pos rfl], (hpay f0.data).2.2, .inl ⟨hn, hid⟩⟩
    · intro m f' hf' x hx
      rw [hfind] at hf'
      by_cases h : n = m
      · rw [if_pos h] at hf'
        cases hf'
        rcases (hpay f0.data).2.1 x hx with h' | h'
        · exact .inl ⟨f0, by rw [← h]; exact hf0, h'⟩
        · exact .inr ⟨h.symm, h'⟩
      · rw [if_neg h] at hf'
        exact .inl ⟨f', hf', hx⟩
    · intro m f hf
      by_cases h : n = m
      · subst h
        rw [hf0] at hf
        cases hf
        exact ⟨f1, by rw [hfind, if_pos rfl], (hpay f0.data).1⟩
      · exact ⟨f, by rw [hfind, if_neg h]; exact hf, fun x hx => hx⟩
    · intro m hm
      rw [hfind] at hm
      by_cases h : n = m
      · subst h; left; rw [hf0]; simp
      · rw [if_neg h] at hm; exact .inl hm

theorem placed_mono {tz : K → G} {pm : String → Option String} {st st' : List (String × UFrame G K M)}
    {a : Item G K M} {n : String} {f : UFrame G K M} (h : Placed tz pm st a n f) (hk : Keeps st st')
    (hg : ∀ m f, find st m = some f → ∃ f', find st' m = some f' ∧ ∀ x ∈ f.data.geoms, x ∈ f'.data.geoms) :
    ∃ f', Placed tz pm st' a n f' := by
  obtain ⟨h1, h2, h3⟩ := h
  obtain ⟨f', k1, k2, k3, k4⟩ := hk n f h1
  obtain ⟨f'', g1, g2⟩ := hg n f h1
  rw [k1] at g1
  cases g1
  refine ⟨f', k1, ?_, ?_⟩
  · rcases h2 with ⟨x, hx, hx'⟩ | h2
    · exact .inl ⟨x, hx, g2 x hx'⟩
    · exact .inr h2
  · rw [k2, k3, k4]; exact h3

theorem bindItems_spec (tz : K → G) (pm : String → Option String) : ∀ (items : List (Item G K M))
    (st : List (String × UFrame G K M)), (∀ a ∈ items, ∀ n, pm a.link = some n → (find st n).isSome) →
    (∀ a ∈ items, Own tz pm a → find st a.newName = none) →
    items.Pairwise (fun a b => Own tz pm a → Own tz pm b → a.newName ≠ b.newName) →
    ∃ st', bindItems tz pm items st = some st' ∧ Keeps st st' ∧ (∀ a ∈ items, ∃ n f, Placed tz pm st' a n f) ∧
      (∀ m f, find st m = some f → ∃ f', find st' m = some f' ∧ ∀ x ∈ f.data.geoms, x ∈ f'.data.geoms) ∧
      ∀ m f', find st' m = some f' → ∀ x ∈ f'.data.geoms,
        (∃ f0, find st m = some f0 ∧ x ∈ f0.data.geoms) ∨ ∃ a ∈ items, x ∈ a.geoms ∧ ∃ f, Placed tz pm st' a m f
  | [], st, _, _, _ => ⟨st, rfl, fun m f h => ⟨f, h, rfl, rfl, rfl⟩, by simp, fun m f h => ⟨f, h, fun _ h => h⟩,
      fun m f h x hx => .inl ⟨f, h, hx⟩⟩
  | a :: items, st, h1, h2, h3 => by
      rw [List.pairwise_cons] at h3
      obtain ⟨s1, e1, k1, ⟨n, f, p1, -, so1⟩, g1, n1⟩ := bindItem_spec tz pm st a (h1 a (by simp)) (h2 a (by simp))
      obtain ⟨s2, e2, k2, p2, g2, so2⟩ := bindItems_spec tz pm items s1
        (fun b hb n hn => by
          obtain ⟨f, hf⟩ := Option.isSome_iff_exists.1 (h1 b (by simp [hb]) n hn)
          obtain ⟨f', hf', -⟩ := k1 n f hf
          rw [hf']; rfl)
        (fun b hb ho => by
          by_contra hc
          rcases n1 _ hc with h | ⟨h, hoa⟩
          · exact h (h2 b (by simp [hb]) ho)
          · exact h3.1 b hb hoa ho h.symm) h3.2
      refine ⟨s2, by rw [bindItems, e1, Option.bind_some, e2], ?_, ?_, ?_, ?_⟩
      · intro m f hf
        obtain ⟨f', a1, a2, a3, a4⟩ := k1 m f hf
        obtain ⟨f'', b1, b2, b3, b4⟩ := k2 m f' a1
        exact ⟨f'', b1, b2.trans a2, b3.trans a3, b4.trans a4⟩
      · intro b hb
        rcases List.mem_cons.1 hb with rfl | hb
        · obtain ⟨f', hf'⟩ := placed_mono p1 k2 g2
          exact ⟨n, f', hf'⟩
        · exact p2 b hb
      · intro m f hf
        obtain ⟨f', a1, a2⟩ := g1 m f hf
        obtain ⟨f'', b1, b2⟩ := g2 m f' a1
        exact ⟨f'', b1, fun x hx => b2 x (a2 x hx)⟩
      · intro m f' hf' x hx
        rcases so2 m f' hf' x hx with ⟨f0, hf0, hx0⟩ | ⟨b, hb, hxb, r⟩
        · rcases so1 m f0 hf0 x hx0 with h | ⟨rfl, h⟩
          · exact .inl h
          · exact .inr ⟨a, by simp, h, placed_mono p1 k2 g2⟩
        · exact .inr ⟨b, by simp [hb], hxb, r⟩

/-- Links whose geometry is kept: meshes scaled alike, one material, a shape in every collision node. -/
structure Simple (l : ULink G K M) : Prop where
  scale : ∀ vis, ∀ v ∈ nodes l vis, ∀ f sx sy sz, v.shape = some (.mesh f sx sy sz) → sy = sx ∧ sz = sx
  material : ∀ v ∈ l.visuals, ∀ w ∈ l.visuals, v.material = w.material
  collision : ∀ v ∈ l.collisions, v.shape ≠ none

theorem nodeShape_same {s : Shape K} (h : ∀ f sx sy sz, s = .mesh f sx sy sz → sy = sx ∧ sz = sx) :
    SameShape s (nodeShape s) := by
  cases s with
  | mesh f sx sy sz => exact ⟨rfl, rfl, h f sx sy sz rfl⟩
  | box x y z => exact ⟨rfl, rfl, rfl⟩
  | sphere r => exact rfl
  | cylinder h r => exact ⟨rfl, rfl⟩

/-- The item of a node. -/
def nodeItem (l : ULink G K M) (vis : Bool) (v : UGeom G K M) (s : Shape K) : Item G K M :=
  ⟨l.name, if vis then "visual" else "collision", v.origin,
    .geom (some ⟨nodeShape s, vis, !vis, l.visuals.head?.bind fun v => v.material⟩)⟩

theorem nodeItem_mem {l : ULink G K M} {vis : Bool} {v : UGeom G K M} {s : Shape K} (hv : v ∈ nodes l vis)
    (hs : v.shape = some s) : nodeItem l vis v s ∈ linkItems l := by
  unfold linkItems
  cases vis with
  | true =>
      refine List.mem_append_left _ (List.mem_append_left _ (List.mem_filterMap.2 ⟨v, hv, ?_⟩))
      rw [hs]; rfl
  | false =>
      refine List.mem_append_left _ (List.mem_append_right _ (List.mem_map.2 ⟨v, hv, ?_⟩))
      rw [hs]; rfl

theorem mem_linkItems {l : ULink G K M} (hl : Simple l) {a : Item G K M} (ha : a ∈ linkItems l)
    {y : Option (SGeom K M)} (hy : y ∈ a.geoms) :
    ∃ vis, ∃ v ∈ nodes l vis, ∃ s, v.shape = some s ∧ a = nodeItem l vis v s := by
  unfold linkItems at ha
  rw [List.mem_append, List.mem_append, List.mem_filterMap, List.mem_map] at ha
  rcases ha with (⟨v, hv, h⟩ | ⟨v, hv, rfl⟩) | h
  · rw [Option.map_eq_some_iff] at h
    obtain ⟨s, hs, rfl⟩ := h
    exact ⟨true, v, hv, s, hs, rfl⟩
  · obtain ⟨s, hs⟩ := Option.ne_none_iff_exists'.1 (hl.collision v hv)
    exact ⟨false, v, hv, s, hs, by rw [hs]; rfl⟩
  · cases hi : l.inertial with
    | none => rw [hi] at h; simp at h
    | some i =>
        rw [hi] at h
        simp only [List.mem_singleton] at h
        subst h
        simp [Item.geoms] at hy

theorem linkItems_link {l : ULink G K M} {a : Item G K M} (ha : a ∈ linkItems l) : a.link = l.name := by
  unfold linkItems at ha
  rw [List.mem_append, List.mem_append, List.mem_filterMap, List.mem_map] at ha
  rcases ha with (⟨v, hv, h⟩ | ⟨v, hv, rfl⟩) | h
  · rw [Option.map_eq_some_iff] at h
    obtain ⟨s, hs, rfl⟩ := h
    rfl
  · rfl
  · cases hi : l.inertial with
    | none => rw [hi] at h; simp at h
    | some i =>
        rw [hi] at h
        simp only [List.mem_singleton] at h
        subst h
        rfl

/-! ### The property -/

/-- C161, partial: a URDF file becomes the robot that it describes.  Missing: joints without an axis or with one limit
only, several nodes of one kind with origins of their own in one link, meshes with different scales, several materials
in one link, collision nodes without shape, and inertial parameters. -/
theorem C161_urdf_partial (mot : Bool → A → K → G) (tz : K → G) (htz : ∀ a b, tz (a + b) = tz a * tz b)
    (js : List (UJoint G K A)) (ls : List (ULink G K M)) (h : Tree js) (hl : ∀ l ∈ ls, Simple l)
    (hj : ∀ a ∈ ls.flatMap linkItems, Own tz (parentMap js) a → ∀ j ∈ js, j.name ≠ a.newName)
    (hd : (ls.flatMap linkItems).Pairwise fun a b =>
      Own tz (parentMap js) a → Own tz (parentMap js) b → a.newName ≠ b.newName) :
    ∃ st, urdfParse mot tz js ls = some st ∧
      (∀ q l g, LinkPose mot js q l g → Pose ⟨st, []⟩ (some q) (parentMap js l) g) ∧
      (∀ l ∈ ls, ∀ vis, ∀ v ∈ nodes l vis, ∀ s, v.shape = some s →
        ∃ n f x, find st n = some f ∧ some x ∈ f.data.geoms ∧ Shown mot tz js st l vis v s n x) ∧
      ∀ n f, find st n = some f → ∀ y ∈ f.data.geoms,
        ∃ l ∈ ls, ∃ vis, ∃ v ∈ nodes l vis, ∃ s x, v.shape = some s ∧ y = some x ∧
          Shown mot tz js st l vis v s n x := by
  obtain ⟨s0, a1, a2, a3⟩ := jointFrames_spec (M := M) (mot := mot) h
  obtain ⟨st, b1, b2, b3, b4, b5⟩ := bindItems_spec tz (parentMap js) (ls.flatMap linkItems) s0
    (fun a _ n hn => by
      obtain ⟨j, hj, -, rfl⟩ := parentMap_some h.children hn
      obtain ⟨f, hf, -⟩ := a2 j hj
      rw [hf]; rfl)
    (fun a ha ho => by
      by_contra hc
      obtain ⟨f, hf⟩ := Option.ne_none_iff_exists'.1 hc
      obtain ⟨j, hjm, e, -⟩ := a3 _ f hf
      exact hj a ha ho j hjm e) hd
  have hpose : ∀ q l g, LinkPose mot js q l g → Pose ⟨st, []⟩ (some q) (parentMap js l) g :=
    fun q l g hlp => pose_keeps b2 (linkPose_pose h a2 hlp)
  have htz0 : tz 0 = 1 := by
    have := htz 0 0
    rw [add_zero] at this
    exact (left_eq_mul.1 this)
  have hmid : ∀ h : K, tz (h / -2) * tz (h / 2) = 1 := by
    intro h
    rw [← htz, div_neg, neg_add_cancel, htz0]
  have key : ∀ l ∈ ls, ∀ vis, ∀ v ∈ nodes l vis, ∀ s, v.shape = some s → ∀ n f,
      Placed tz (parentMap js) st (nodeItem l vis v s) n f →
      Shown mot tz js st l vis v s n ⟨nodeShape s, vis, !vis, l.visuals.head?.bind fun v => v.material⟩ := by
    rintro l hlm vis v hv s hs n f ⟨p1, -, p3⟩
    refine ⟨nodeShape_same fun f sx sy sz e => (hl l hlm).scale vis v hv f sx sy sz (by rw [hs, e]), rfl, rfl, ?_, ?_⟩
    · rintro rfl
      have hv' : v ∈ l.visuals := hv
      cases hvs : l.visuals with
      | nil => rw [hvs] at hv'; simp at hv'
      | cons w r =>
          simp only [List.head?_cons, Option.bind_some]
          exact (hl l hlm).material w (by rw [hvs]; simp) v hv'
    · intro q g hg
      have hp := hpose q l.name g hg
      have hoff : offset tz (nodeItem l vis v s).payload * middle tz (nodeShape s) = 1 := by
        cases s <;> simp [nodeItem, nodeShape, offset, middle, hmid]
      rcases p3 with ⟨e1, e2⟩ | ⟨hn, e1, e2, e3⟩
      · refine ⟨g, by rw [← e1]; exact hp, ?_⟩
        have : v.origin = middle tz (nodeShape s) := by
          have h1 : v.origin * offset tz (nodeItem l vis v s).payload = 1 := e2
          calc v.origin = v.origin * (offset tz (nodeItem l vis v s).payload * middle tz (nodeShape s)) := by
                rw [hoff, mul_one]
            _ = middle tz (nodeShape s) := by rw [← mul_assoc, h1, one_mul]
        rw [this]
      · refine ⟨g * (v.origin * offset tz (nodeItem l vis v s).payload),
          pose_step _ _ n f _ g hn p1 (.inl ⟨e2, e3.symm⟩) (by rw [e1]; exact hp), ?_⟩
        rw [mul_assoc, mul_assoc, hoff, mul_one]
  refine ⟨st, by rw [urdfParse, a1, Option.bind_some, b1], hpose, ?_, ?_⟩
  · intro l hlm vis v hv s hs
    obtain ⟨n, f, hp⟩ := b3 _ (List.mem_flatMap.2 ⟨l, hlm, nodeItem_mem hv hs⟩)
    refine ⟨n, f, _, hp.1, ?_, key l hlm vis v hv s hs n f hp⟩
    rcases hp.2.1 with ⟨x, hx, hx'⟩ | h0
    · simp only [Item.geoms, nodeItem, List.mem_singleton] at hx
      rw [← hx]; exact hx'
    · simp [Item.geoms, nodeItem] at h0
  · intro n f hf y hy
    rcases b5 n f hf y hy with ⟨f0, hf0, hy0⟩ | ⟨a, ha, hya, f', hp⟩
    · obtain ⟨j, -, -, e⟩ := a3 n f0 hf0
      rw [e] at hy0; simp at hy0
    · obtain ⟨l, hlm, ha⟩ := List.mem_flatMap.1 ha
      obtain ⟨vis, v, hv, s, hs, rfl⟩ := mem_linkItems (hl l hlm) ha hya
      simp only [Item.geoms, nodeItem, List.mem_singleton] at hya
      exact ⟨l, hlm, vis, v, hv, s, _, hs, hya, key l hlm vis v hv s hs n f' hp⟩

/-! ### Examples and violations -/

/-- Motions on a line. -/
abbrev Line := Multiplicative ℚ

def lineMot (_ : Bool) (a q : ℚ) : Line := .ofAdd (a * q)

def lineTz (z : ℚ) : Line := .ofAdd z

/-- A slide on a base, and a tool fixed to it. -/
def slide : List (UJoint Line ℚ ℚ) :=
  [⟨"j0", .prismatic, .ofAdd 10, some 1, "base", "arm", some 5, some (-1), some 1, none⟩,
   ⟨"j1", .fixed, .ofAdd 3, none, "arm", "tool", none, none, none, none⟩]

def links : List (ULink Line ℚ Nat) :=
  [⟨"base", [⟨1, some (.box 1 2 3), some 7⟩], [], none⟩,
   ⟨"arm", [⟨1, some (.cylinder 4 1), some 8⟩, ⟨1, some (.sphere 2), some 8⟩], [⟨.ofAdd 2, some (.cylinder 4 1), none⟩],
     none⟩, ⟨"tool", [⟨.ofAdd 1, some (.mesh "tool.dae" 2 2 2), none⟩], [], none⟩]

example : ((urdfParse lineMot lineTz slide links).bind fun st =>
    tfAbsolute ⟨st, []⟩ (some fun _ => 6) (fun _ => none) 9 (some "j1")) = some (.ofAdd 19) := by decide +kernel

example : ((urdfParse lineMot lineTz slide links).bind fun st =>
    tfAbsolute ⟨st, []⟩ (some fun _ => 6) (fun _ => none) 9 (some "arm-visual")) = some (.ofAdd 14) := by decide +kernel

example : ((urdfParse lineMot lineTz slide links).bind fun st => (find st "j0").map fun f => f.data.geoms) =
    some [some ⟨.cylinder 4 1, false, true, some 8⟩, some ⟨.sphere 2, true, false, some 8⟩] := by decide +kernel

/-- The hypotheses of the partial theorem hold for the slide. -/
example : (∀ a b, lineTz (a + b) = lineTz a * lineTz b) ∧ Tree slide ∧ (∀ l ∈ links, Simple l) ∧
    (∀ a ∈ links.flatMap linkItems, Own lineTz (parentMap slide) a → ∀ j ∈ slide, j.name ≠ a.newName) ∧
    (links.flatMap linkItems).Pairwise fun a b =>
      Own lineTz (parentMap slide) a → Own lineTz (parentMap slide) b → a.newName ≠ b.newName := by
  refine ⟨fun a b => rfl, ⟨by decide +kernel, by decide +kernel, ?_⟩, ?_, ?_, ?_⟩
  · simp [slide, Supported]
  · intro l hl
    refine ⟨?_, ?_, ?_⟩
    · intro vis v hv f sx sy sz e
      simp only [links, List.mem_cons, List.not_mem_nil, or_false] at hl
      rcases hl with rfl | rfl | rfl <;> cases vis <;> simp [nodes] at hv
      · subst hv; simp at e
      · subst hv; simp at e
      · rcases hv with rfl | rfl <;> simp at e
      · subst hv
        simp only [Option.some.injEq, Shape.mesh.injEq] at e
        obtain ⟨-, rfl, rfl, rfl⟩ := e
        exact ⟨rfl, rfl⟩
    · simp only [links, List.mem_cons, List.not_mem_nil, or_false] at hl
      rcases hl with rfl | rfl | rfl <;> simp
    · simp only [links, List.mem_cons, List.not_mem_nil, or_false] at hl
      rcases hl with rfl | rfl | rfl <;> simp
  · intro a ha _ j hj
    have : ∀ j ∈ slide, ∀ n ∈ (links.flatMap linkItems).map Item.newName, j.name ≠ n := by decide +kernel
    exact this j hj _ (List.mem_map_of_mem ha)
  · simp [links, linkItems, Item.newName, Own, parentMap, slide, offset, nodeShape]

/-- C161 fails: the second visual node of a link with an origin of its own takes the frame of the first, whose
geometry is lost. -/
theorem C161_visuals_violates : ∃ (l : ULink Line ℚ Nat) (v w : UGeom Line ℚ Nat),
    l.visuals = [v, w] ∧ v.shape = some (.sphere 1) ∧ w.shape = some (.sphere 2) ∧
      ((urdfParse lineMot lineTz slide [l]).map fun st => st.map fun e => (e.1, e.2.data.geoms)) =
        some [("arm-visual", [some ⟨.sphere 2, true, false, none⟩]), ("j1", []), ("j0", [])] :=
  ⟨⟨"arm", [⟨.ofAdd 1, some (.sphere 1), none⟩, ⟨.ofAdd 5, some (.sphere 2), none⟩], [], none⟩, _, _, rfl, rfl, rfl,
    by decide +kernel⟩

/-- C161 fails: all shapes of a link have the material of its first visual node. -/
theorem C161_material_violates : ∃ (l : ULink Line ℚ Nat) (v w : UGeom Line ℚ Nat),
    l.visuals = [v, w] ∧ v.material = some 7 ∧ w.material = some 8 ∧
      ((urdfParse lineMot lineTz slide [l]).bind fun st => (find st "j0").map fun f => f.data.geoms) =
        some [some ⟨.sphere 2, true, false, some 7⟩, some ⟨.sphere 1, true, false, some 7⟩] :=
  ⟨⟨"arm", [⟨1, some (.sphere 1), some 7⟩, ⟨1, some (.sphere 2), some 8⟩], [], none⟩, _, _, rfl, rfl, rfl,
    by decide +kernel⟩

/-- C161 fails: of the scales of a mesh along the three axes only the first is used. -/
theorem C161_scale_violates : ∃ l : ULink Line ℚ Nat, l.visuals = [⟨1, some (.mesh "m.dae" 1 2 3), none⟩] ∧
    ((urdfParse lineMot lineTz slide [l]).bind fun st => (find st "j0").map fun f => f.data.geoms) =
      some [some ⟨.mesh "m.dae" 1, true, false, none⟩] :=
  ⟨⟨"arm", [⟨1, some (.mesh "m.dae" 1 2 3), none⟩], [], none⟩, rfl, by decide +kernel⟩

/-- C161 fails: the tensor of inertia of a link with products of inertia is not symmetric: where URDF gives the entry
twice, one of the two has the wrong sign. -/
theorem C161_inertia_violates (i : UInertial Line ℚ) :
    tensor i = [i.ixx, -i.ixy, -i.ixz, i.ixy, i.iyy, -i.iyz, i.ixz, i.iyz, i.izz] ∧
    (i.ixy ≠ 0 → tensor i ≠ [i.ixx, i.ixy, i.ixz, i.ixy, i.iyy, i.iyz, i.ixz, i.iyz, i.izz]) := by
  refine ⟨rfl, fun h e => h ?_⟩
  simp only [tensor, List.cons.injEq] at e
  have h1 := e.2.1
  have : i.ixy + i.ixy = 0 := by
    nth_rewrite 1 [← h1]
    exact neg_add_cancel _
  linarith

/-- C161 fails: a joint without an axis, whose axis is x in URDF, is not loaded. -/
theorem C161_axis_violates (ls : List (ULink Line ℚ Nat)) : ∃ j : UJoint Line ℚ ℚ, j.type = .revolute ∧
    j.axis = none ∧ urdfParse lineMot lineTz [j] ls = none :=
  ⟨⟨"j0", .revolute, 1, none, "base", "arm", none, none, none, none⟩, rfl, rfl, rfl⟩

/-- C161 fails: a joint with an upper limit only, whose lower limit is zero in URDF, is not loaded. -/
theorem C161_limit_violates (ls : List (ULink Line ℚ Nat)) : ∃ j : UJoint Line ℚ ℚ, j.type = .prismatic ∧
    j.lower = none ∧ j.upper = some 1 ∧ urdfParse lineMot lineTz [j] ls = none :=
  ⟨⟨"j0", .prismatic, 1, some 1, "base", "arm", none, none, some 1, none⟩, rfl, rfl, rfl, rfl⟩

end Verif.Urdf
