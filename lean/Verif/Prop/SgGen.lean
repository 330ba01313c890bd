/-
C160: scene graphs written by the scene compiler, and scene graphs made in Lisp.
-/
import Verif.Model.SgGen
import Mathlib.Data.List.Forall2
import Mathlib.Data.List.Nodup
import Mathlib.Data.Rat.Defs
import Mathlib.Algebra.Field.Rat

namespace Verif.SgGen

set_option linter.unusedSectionVars false

variable {K T : Type}

/-! ### Specification -/

section
variable [Field K] [DecidableEq K]

/-- Drawing options, or the defaults of `*draw-options*`. -/
def OptSpec (a : Alist K) (o : COpt K) : Prop :=
  (∀ c, a.color = some c → o.color = c) ∧ (a.color = none → o.color = (4 / 5, 4 / 5, 4 / 5)) ∧
  (∀ c, a.alpha = some c → o.alpha = c) ∧ (a.alpha = none → o.alpha = 1) ∧
  (∀ c, a.specular = some c → o.specular = c) ∧ (a.specular = none → o.specular = (0, 0, 0)) ∧
  (∀ c, a.visual = some c → o.visual = c) ∧ (a.visual = none → o.visual = true) ∧
  (∀ c, a.collision = some c → o.collision = c) ∧ (a.collision = none → o.collision = true) ∧
  (∀ c, a.noShadow = some c → o.noShadow = c) ∧ (a.noShadow = none → o.noShadow = false) ∧
  (∀ c, a.scale = some c → o.scale = c) ∧ (a.scale = none → o.scale = 1)

/-- A frame of the C library is that of the Lisp library.  Frames of the global frame (no name, or the empty one)
hang at `root`. -/
structure FrameSpec (root : String) (f : Frame K T) (c : CFrame K T) : Prop where
  parent : ∀ p, f.parent = some p → p ≠ "" → c.parent = p
  root : f.parent = none ∨ f.parent = some "" → c.parent = root
  tf : c.tf = f.tf
  joint : c.joint = f.joint
  inertial : c.inertial = f.inertial
  geometry : List.Forall₂ (fun g x => x.1 = g.shape ∧ OptSpec g.opts x.2) f.geometry c.geometry

/-- The limits of one kind. -/
def Limits.get (l : Limits K) : Kind → Option (K × K)
  | .pos => l.position
  | .vel => l.velocity
  | .acc => l.acceleration
  | .eff => l.effort

/-- A joint moves with the configuration `c`. -/
def Used (l : List (String × Frame K T)) (c : String) : Prop :=
  ∃ e ∈ l, ∃ j, e.2.joint = some j ∧ j.config = c

/-- The pair may collide. -/
def Allowed (l : List (String × String)) (a b : String) : Prop := (a, b) ∈ l ∨ (b, a) ∈ l

/-- The C scene graph is the Lisp scene graph below `root`. -/
structure SgSpec (sg : LispSg K T) (root : String) (s : CSg K T) : Prop where
  frames : ∀ e ∈ sg.frames, ∃ c, s.frames e.1 = some c ∧ FrameSpec root e.2 c
  others : ∀ n, (∀ e ∈ sg.frames, e.1 ≠ n) → s.frames n = none
  limits : ∀ c k, Used sg.frames c → s.limits c k = (sg.limits c).bind fun l => l.get k
  noLimits : ∀ c k, ¬ Used sg.frames c → s.limits c k = none
  allowed : ∀ a b, Allowed s.allowed a b ↔ Allowed sg.allowed a b

/-! ### Lemmas -/

theorem run_append : ∀ (a b : List (Call K T)) (s : CSg K T), run (a ++ b) s = (run a s).bind (run b)
  | [], _, _ => rfl
  | c :: a, b, s => by
      simp only [List.cons_append, run]
      cases exec s c with
      | none => rfl
      | some s' => simp only [Option.bind_some]; exact run_append a b s'

/-- Limits of a configuration, unless there is none. -/
def limOr (l : Option (Limits K)) (k : Kind) (x : Option (K × K)) : Option (K × K) :=
  match l.bind fun l => l.get k with
  | some y => some y
  | none => x

theorem run_limits (c : String) (l : Option (Limits K)) (s : CSg K T) :
    run (genLimits c l) s =
      some { s with limits := fun c' k => if c' = c then limOr l k (s.limits c' k) else s.limits c' k } := by
  cases l with
  | none => simp [genLimits, run, limOr]
  | some l =>
      obtain ⟨p, v, a, e⟩ := l
      obtain ⟨fs, lim, al⟩ := s
      cases p <;> cases v <;> cases a <;> cases e <;>
      · simp only [genLimits, List.nil_append, List.append_nil, List.cons_append, run, exec, Option.bind_some,
          Option.some.injEq, CSg.mk.injEq, true_and, and_true]
        funext c' k
        by_cases h : c' = c <;> cases k <;> simp [h, limOr, Limits.get]

theorem limOr_idem (l : Option (Limits K)) (k : Kind) (x : Option (K × K)) :
    limOr l k (limOr l k x) = limOr l k x := by
  unfold limOr
  cases l.bind fun l => l.get k <;> rfl

/-- The limits after a frame. -/
def limAdd (sg : LispSg K T) (f : Frame K T) (lim : String → Kind → Option (K × K)) :
    String → Kind → Option (K × K) := fun c k =>
  match f.joint with
  | none => lim c k
  | some j => if c = j.config then limOr (sg.limits j.config) k (lim c k) else lim c k

/-- The C frame before its geometry. -/
def bare (root : String) (inertia : Bool) (f : Frame K T) : CFrame K T :=
  ⟨f.parent.getD root, f.tf, f.joint, if inertia ∧ f.joint.isSome then f.inertial else none, []⟩

theorem run_genFrame (sg : LispSg K T) (root : String) (e : String × Frame K T) (s : CSg K T) :
    run (genFrame sg root e) s =
      some ⟨fun m => if m = e.1 then some (bare root true e.2) else s.frames m, limAdd sg e.2 s.limits, s.allowed⟩ := by
  obtain ⟨n, p, tf, j, i, g⟩ := e
  cases j with
  | none => simp [genFrame, run, exec, setFrame, bare]; rfl
  | some j =>
      simp only [genFrame, run, exec, Option.bind_some, run_append, run_limits]
      cases i with
      | none => simp [run, setFrame, bare]; rfl
      | some i =>
          obtain ⟨m, i⟩ := i
          simp only [run, exec, setFrame, if_true, Option.map_some, Option.bind_some, Option.some.injEq,
            CSg.mk.injEq, and_true]
          refine ⟨?_, rfl⟩
          funext x
          by_cases h : x = n <;> simp [h, bare]

theorem run_mutFrame (sg : LispSg K T) (e : String × Frame K T) (s : CSg K T) :
    run (mutFrame sg e) s =
      some ⟨fun m => if m = e.1 then some (bare "" false e.2) else s.frames m, limAdd sg e.2 s.limits, s.allowed⟩ := by
  obtain ⟨n, p, tf, j, i, g⟩ := e
  cases j with
  | none => simp [mutFrame, run, exec, setFrame, bare]; rfl
  | some j =>
      simp only [mutFrame, run, exec, Option.bind_some, run_limits]
      simp [setFrame, bare]; rfl

theorem run_frames (sg : LispSg K T) (gen : String × Frame K T → List (Call K T)) (fr : Frame K T → CFrame K T)
    (h : ∀ e s, run (gen e) s =
      some ⟨fun m => if m = e.1 then some (fr e.2) else s.frames m, limAdd sg e.2 s.limits, s.allowed⟩) :
    ∀ (l : List (String × Frame K T)) (s : CSg K T), (l.map Prod.fst).Nodup →
      ∃ s', run (l.flatMap gen) s = some s' ∧ (∀ e ∈ l, s'.frames e.1 = some (fr e.2)) ∧
        (∀ n, (∀ e ∈ l, e.1 ≠ n) → s'.frames n = s.frames n) ∧
        (∀ c k, Used l c → s'.limits c k = limOr (sg.limits c) k (s.limits c k)) ∧
        (∀ c k, ¬ Used l c → s'.limits c k = s.limits c k) ∧ s'.allowed = s.allowed
  | [], s, _ => ⟨s, rfl, by simp, fun _ _ => rfl, fun c k ⟨e, he, _⟩ => by simp at he, fun _ _ _ => rfl, rfl⟩
  | e :: l, s, hn => by
      rw [List.map_cons, List.nodup_cons] at hn
      obtain ⟨s', h1, h2, h3, h4, h5, h6⟩ := run_frames sg gen fr h l
        ⟨fun m => if m = e.1 then some (fr e.2) else s.frames m, limAdd sg e.2 s.limits, s.allowed⟩ hn.2
      refine ⟨s', ?_, ?_, ?_, ?_, ?_, h6⟩
      · rw [List.flatMap_cons, run_append, h e s, Option.bind_some, h1]
      · intro x hx
        rcases List.mem_cons.1 hx with rfl | hx
        · rw [h3 x.1 fun y hy e => hn.1 (e ▸ List.mem_map_of_mem hy)]
          simp
        · exact h2 x hx
      · intro n hnn
        rw [h3 n fun y hy => hnn y (by simp [hy])]
        simp [(hnn e (by simp)).symm]
      · intro c k hu
        by_cases hl : Used l c
        · rw [h4 c k hl]
          simp only [limAdd]
          cases hj : e.2.joint with
          | none => rfl
          | some j =>
              by_cases hc : c = j.config
              · simp only [if_pos hc]; rw [← hc, limOr_idem]
              · simp only [if_neg hc]
        · rw [h5 c k hl]
          obtain ⟨x, hx, j, hj, hc⟩ := hu
          rcases List.mem_cons.1 hx with rfl | hx
          · simp [limAdd, hj, hc]
          · exact absurd ⟨x, hx, j, hj, hc⟩ hl
      · intro c k hu
        rw [h5 c k fun ⟨x, hx, r⟩ => hu ⟨x, by simp [hx], r⟩]
        simp only [limAdd]
        cases hj : e.2.joint with
        | none => rfl
        | some j =>
            have : c ≠ j.config := fun hc => hu ⟨e, by simp, j, hj, hc.symm⟩
            simp [this]

theorem run_attach (n : String) (o : Alist K → COpt K) : ∀ (gs : List (Geom K)) (s : CSg K T) (c : CFrame K T),
    s.frames n = some c → ∃ s', run (gs.map fun g => .attach n g.shape (o g.opts)) s = some s' ∧
      s'.frames n = some { c with geometry := c.geometry ++ gs.map fun g => (g.shape, o g.opts) } ∧
      (∀ m, m ≠ n → s'.frames m = s.frames m) ∧ s'.limits = s.limits ∧ s'.allowed = s.allowed
  | [], s, c, h => ⟨s, rfl, by simpa using h, fun _ _ => rfl, rfl, rfl⟩
  | g :: gs, s, c, h => by
      obtain ⟨s', h1, h2, h3, h4, h5⟩ := run_attach n o gs
        (setFrame s n { c with geometry := c.geometry ++ [(g.shape, o g.opts)] }) _ (by simp [setFrame]; rfl)
      refine ⟨s', ?_, ?_, ?_, h4, h5⟩
      · simp only [List.map_cons, run, exec, h, Option.map_some, Option.bind_some]
        exact h1
      · rw [h2]; simp
      · intro m hm; rw [h3 m hm]; simp [setFrame, hm]

theorem run_geoms (o : Alist K → COpt K) (fr : Frame K T → CFrame K T) :
    ∀ (l : List (String × Frame K T)) (s : CSg K T), (l.map Prod.fst).Nodup →
      (∀ e ∈ l, s.frames e.1 = some (fr e.2)) →
      ∃ s', run (l.flatMap fun e => e.2.geometry.map fun g => .attach e.1 g.shape (o g.opts)) s = some s' ∧
        (∀ e ∈ l, s'.frames e.1 = some { fr e.2 with
          geometry := (fr e.2).geometry ++ e.2.geometry.map fun g => (g.shape, o g.opts) }) ∧
        (∀ n, (∀ e ∈ l, e.1 ≠ n) → s'.frames n = s.frames n) ∧ s'.limits = s.limits ∧ s'.allowed = s.allowed
  | [], s, _, _ => ⟨s, rfl, by simp, fun _ _ => rfl, rfl, rfl⟩
  | e :: l, s, hn, hs => by
      rw [List.map_cons, List.nodup_cons] at hn
      obtain ⟨s1, a1, a2, a3, a4, a5⟩ := run_attach e.1 o e.2.geometry s _ (hs e (by simp))
      have hne : ∀ x ∈ l, x.1 ≠ e.1 := fun x hx q => hn.1 (q ▸ List.mem_map_of_mem hx)
      obtain ⟨s', h1, h2, h3, h4, h5⟩ := run_geoms o fr l s1 hn.2 fun x hx => by
        rw [a3 _ (hne x hx)]; exact hs x (by simp [hx])
      refine ⟨s', ?_, ?_, ?_, h4.trans a4, h5.trans a5⟩
      · rw [List.flatMap_cons, run_append, a1, Option.bind_some, h1]
      · intro x hx
        rcases List.mem_cons.1 hx with rfl | hx
        · rw [h3 x.1 hne, a2]
        · exact h2 x hx
      · intro n hnn
        rw [h3 n fun y hy => hnn y (by simp [hy]), a3 n (hnn e (by simp)).symm]

theorem run_allow : ∀ (l : List (String × String)) (s : CSg K T),
    (∀ p ∈ l, (s.frames p.1).isSome ∧ (s.frames p.2).isSome) →
    ∃ s', run (l.map fun p => .allow p.1 p.2) s = some s' ∧ s'.frames = s.frames ∧ s'.limits = s.limits ∧
      ∀ a b, Allowed s'.allowed a b ↔ Allowed l a b ∨ Allowed s.allowed a b
  | [], s, _ => ⟨s, rfl, rfl, rfl, by simp [Allowed]⟩
  | (x, y) :: l, s, h => by
      obtain ⟨hx, hy⟩ := h (x, y) (by simp)
      obtain ⟨fx, hx⟩ := Option.isSome_iff_exists.1 hx
      obtain ⟨fy, hy⟩ := Option.isSome_iff_exists.1 hy
      simp only at hx hy
      obtain ⟨s', h1, h2, h3, h4⟩ := run_allow l { s with allowed := (if x < y then (x, y) else (y, x)) :: s.allowed }
        fun p hp => h p (by simp [hp])
      refine ⟨s', ?_, h2, h3, fun a b => ?_⟩
      · simp only [List.map_cons, run, exec, hx, hy, Option.bind_some, Option.map_some]
        exact h1
      · rw [h4]
        simp only [Allowed]
        by_cases hlt : x < y
        · simp only [if_pos hlt, List.mem_cons, Prod.mk.injEq]; tauto
        · simp only [if_neg hlt, List.mem_cons, Prod.mk.injEq]; tauto

theorem allSome_map {α β : Type} (f : α → Option β) (g : α → β) : ∀ l : List α, (∀ x ∈ l, f x = some (g x)) →
    allSome (l.map f) = some (l.map g)
  | [], _ => rfl
  | x :: l, h => by
      rw [List.map_cons, allSome, h x (by simp), Option.bind_some, allSome_map f g l fun y hy => h y (by simp [hy])]
      rfl

theorem allSome_append {β : Type} : ∀ (a b : List (Option β)) (x y : List β), allSome a = some x →
    allSome b = some y → allSome (a ++ b) = some (x ++ y)
  | [], b, x, y, h, h' => by cases h; simpa using h'
  | u :: a, b, x, y, h, h' => by
      simp only [allSome, Option.bind_eq_some_iff, Option.map_eq_some_iff] at h
      obtain ⟨v, rfl, r, hr, rfl⟩ := h
      simp [allSome, allSome_append a b r y hr h']

/-- The compiler writes the shape. -/
def Writable : Shape K → Prop
  | .torus _ _ _ => False
  | .text _ => False
  | _ => True

theorem genShape_writable (sh : Shape K) (h : Writable sh) : genShape sh = some sh := by
  cases sh <;> first | rfl | exact h.elim

theorem geoms_eq (l : List (String × Frame K T)) (h : ∀ e ∈ l, ∀ g ∈ e.2.geometry, Writable g.shape) :
    allSome (l.flatMap fun e => e.2.geometry.map (genGeom (T := T) e.1)) =
      some (l.flatMap fun e => e.2.geometry.map fun g => .attach e.1 g.shape (genOpt g.opts)) := by
  induction l with
  | nil => rfl
  | cons e l ih =>
      rw [List.flatMap_cons, List.flatMap_cons]
      refine allSome_append _ _ _ _ ?_ (ih fun x hx => h x (by simp [hx]))
      refine allSome_map _ _ _ fun g hg => ?_
      rw [genGeom, genShape_writable _ (h e (by simp) g hg)]
      rfl

theorem genOpt_spec (a : Alist K) : OptSpec a (genOpt a) := by
  obtain ⟨c, al, sp, v, co, ns, sc⟩ := a
  unfold OptSpec genOpt
  refine ⟨?_, ?_, ?_, ?_, ?_, ?_, ?_, ?_, ?_, ?_, ?_, ?_, ?_, ?_⟩
  all_goals
    simp only
    split_ifs with hs <;> try (rintro _ rfl; rfl) 
    all_goals try (rintro rfl; rfl)
  · rintro x rfl; exact hs.symm

theorem forall₂_map {α β : Type} {R : α → β → Prop} (f : α → β) : ∀ l : List α, (∀ x, R x (f x)) →
    List.Forall₂ R l (l.map f)
  | [], _ => .nil
  | x :: l, h => .cons (h x) (forall₂_map f l h)

/-! ### The property -/

/-- C160, partial: the compiled function builds the scene graph.  Missing: graphs with a torus or text, inertial
parameters of fixed frames, empty names of parents below other roots, and allowed collisions of frames that are not
in the graph. -/
theorem C160_compiled_partial (sg : LispSg K T) (root : String) (hn : (sg.frames.map Prod.fst).Nodup)
    (hw : ∀ e ∈ sg.frames, ∀ g ∈ e.2.geometry, Writable g.shape)
    (hi : ∀ e ∈ sg.frames, e.2.joint = none → e.2.inertial = none)
    (hp : ∀ e ∈ sg.frames, e.2.parent = some "" → root = "")
    (ha : ∀ p ∈ sg.allowed, (∃ e ∈ sg.frames, e.1 = p.1) ∧ ∃ e ∈ sg.frames, e.1 = p.2) :
    ∃ calls s, genc sg root = some calls ∧ run calls cempty = some s ∧ SgSpec sg root s := by
  obtain ⟨s1, a1, a2, a3, a4, a5, a6⟩ := run_frames sg (genFrame sg root) (bare root true)
    (run_genFrame sg root) sg.frames cempty hn
  obtain ⟨s2, b1, b2, b3, b4, b5⟩ := run_geoms genOpt (bare root true) sg.frames s1 hn a2
  obtain ⟨s3, c1, c2, c3, c4⟩ := run_allow sg.allowed s2 (by
    intro p hp
    obtain ⟨⟨e, he, h1⟩, e', he', h2⟩ := ha p hp
    rw [← h1, ← h2, b2 e he, b2 e' he']
    exact ⟨rfl, rfl⟩)
  refine ⟨_, s3, by rw [genc, geoms_eq _ hw]; rfl, ?_, ?_⟩
  · rw [run_append, run_append, a1, Option.bind_some, b1, Option.bind_some, c1]
  · constructor
    · intro e he
      refine ⟨_, by rw [c2]; exact b2 e he, ?_⟩
      constructor
      · intro p hp _; simp [bare, hp]
      · rintro (h | h)
        · simp [bare, h]
        · simp [bare, h, hp e he h]
      · rfl
      · rfl
      · simp only [bare]
        cases hj : e.2.joint with
        | none => simp [hi e he hj]
        | some j => simp
      · simp only [bare, List.nil_append]
        exact forall₂_map _ _ fun g => ⟨rfl, genOpt_spec _⟩
    · intro n hnn
      rw [c2, b3 n hnn, a3 n hnn]
      rfl
    · intro c k hu
      rw [c3, b4, a4 c k hu, limOr]
      cases (sg.limits c).bind fun l => l.get k <;> rfl
    · intro c k hu
      rw [c3, b4, a5 c k hu]
      rfl
    · intro a b
      rw [c4, b5, a6]
      simp [Allowed, cempty]

/-- Scene graphs made in Lisp attach the geometry. -/
def Attached (g : Geom K) : Prop :=
  match g.shape with
  | .text _ => False
  | .mesh _ => g.loaded = true
  | _ => True

theorem mutGeom_eq (n : String) (g : Geom K) (h : Attached g) :
    mutGeom (T := T) n g = [.attach n g.shape (alistOpt g.opts)] := by
  obtain ⟨sh, o, ld⟩ := g
  unfold Attached at h
  cases sh <;> simp_all [mutGeom]

theorem alistOpt_eq (a : Alist K) (h : a.color ≠ none) : alistOpt a = genOpt a := by
  obtain ⟨c, al, sp, v, co, ns, sc⟩ := a
  cases c with
  | none => exact absurd rfl h
  | some c =>
      cases al <;> cases sp <;> cases v <;> cases co <;> cases ns <;> cases sc <;>
        simp [alistOpt, genOpt, optCreate]

/-- C160, partial: the scene graph made in Lisp has the same frames, limits and geometry as the compiled one, below
the global frame.  Missing: geometry without colour or not loaded, a torus or text, inertial parameters. -/
theorem C160_same_partial (sg : LispSg K T) (hn : (sg.frames.map Prod.fst).Nodup)
    (hw : ∀ e ∈ sg.frames, ∀ g ∈ e.2.geometry, Writable g.shape ∧ Attached g ∧ g.opts.color ≠ none)
    (hi : ∀ e ∈ sg.frames, e.2.inertial = none)
    (ha : ∀ p ∈ sg.allowed, (∃ e ∈ sg.frames, e.1 = p.1) ∧ ∃ e ∈ sg.frames, e.1 = p.2) :
    ∃ calls s s', genc sg "" = some calls ∧ run calls cempty = some s ∧ run (mutable sg) cempty = some s' ∧
      s'.frames = s.frames ∧ s'.limits = s.limits := by
  obtain ⟨s1, a1, a2, a3, a4, a5, a6⟩ := run_frames sg (genFrame sg "") (bare "" true)
    (run_genFrame sg "") sg.frames cempty hn
  obtain ⟨s2, b1, b2, b3, b4, b5⟩ := run_geoms genOpt (bare "" true) sg.frames s1 hn a2
  obtain ⟨s3, c1, c2, c3, c4⟩ := run_allow sg.allowed s2 (by
    intro p hp
    obtain ⟨⟨e, he, h1⟩, e', he', h2⟩ := ha p hp
    rw [← h1, ← h2, b2 e he, b2 e' he']
    exact ⟨rfl, rfl⟩)
  obtain ⟨t1, d1, d2, d3, d4, d5, d6⟩ := run_frames sg (mutFrame sg) (bare "" false)
    (run_mutFrame sg) sg.frames cempty hn
  obtain ⟨t2, e1, e2, e3, e4, e5⟩ := run_geoms alistOpt (bare "" false) sg.frames t1 hn d2
  have hg : (sg.frames.flatMap fun e => e.2.geometry.flatMap (mutGeom (T := T) e.1)) =
      sg.frames.flatMap fun e => e.2.geometry.map fun g => .attach e.1 g.shape (alistOpt g.opts) := by
    refine List.flatMap_congr fun e he => ?_
    rw [List.map_eq_flatMap]
    exact List.flatMap_congr fun g hgm => mutGeom_eq _ _ (hw e he g hgm).2.1
  refine ⟨_, s3, t2, by rw [genc, geoms_eq _ fun e he g hgm => (hw e he g hgm).1]; rfl, ?_, ?_, ?_, ?_⟩
  · rw [run_append, run_append, a1, Option.bind_some, b1, Option.bind_some, c1]
  · rw [mutable, run_append, d1, Option.bind_some, hg, e1]
  · rw [c2]
    funext n
    by_cases hx : ∃ e ∈ sg.frames, e.1 = n
    · obtain ⟨e, he, rfl⟩ := hx
      rw [e2 e he, b2 e he]
      have : (e.2.geometry.map fun g => (g.shape, alistOpt g.opts)) =
          e.2.geometry.map fun g => (g.shape, genOpt g.opts) :=
        List.map_congr_left fun g hgm => by rw [alistOpt_eq _ (hw e he g hgm).2.2]
      simp [bare, hi e he, this]
    · have hx' : ∀ e ∈ sg.frames, e.1 ≠ n := fun e he q => hx ⟨e, he, q⟩
      rw [e3 n hx', d3 n hx', b3 n hx', a3 n hx']
  · rw [c3, b4, e4]
    funext c k
    by_cases hu : Used sg.frames c
    · rw [d4 c k hu, a4 c k hu]
    · rw [d5 c k hu, a5 c k hu]

end

/-! ### Examples and violations -/

/-- No drawing options. -/
def plain : Alist ℚ := ⟨none, none, none, none, none, none, none⟩

/-- An arm with a base, a shoulder with a box, and limits. -/
def arm : LispSg ℚ Nat :=
  ⟨[("base", ⟨none, 1, none, none, [⟨.cylinder 2 3, { plain with color := some (1, 0, 0) }, false⟩]⟩),
    ("shoulder", ⟨some "base", 2, some ⟨true, "q0", 5, (0, 0, 1)⟩, some (7, [1, 0, 0, 0, 1, 0, 0, 0, 1]),
      [⟨.box (1, 2, 3), { plain with color := some (0, 1, 0), scale := some 2, collision := some false }, false⟩,
       ⟨.mesh "hand", { plain with color := some (0, 1, 1) }, true⟩]⟩)],
    fun c => if c = "q0" then some ⟨some (-1, 1), none, some (-2, 2), none⟩ else none, [("shoulder", "base")]⟩

/-- The hypotheses of the partial theorem hold for the arm. -/
example : (arm.frames.map Prod.fst).Nodup ∧
    (∀ e ∈ arm.frames, ∀ g ∈ e.2.geometry, Writable g.shape ∧ Attached g ∧ g.opts.color ≠ none) ∧
    (∀ e ∈ arm.frames, e.2.joint = none → e.2.inertial = none) ∧
    (∀ e ∈ arm.frames, e.2.parent = some "" → "world" = "") ∧
    ∀ p ∈ arm.allowed, (∃ e ∈ arm.frames, e.1 = p.1) ∧ ∃ e ∈ arm.frames, e.1 = p.2 := by
  refine ⟨by decide +kernel, ?_, ?_, ?_, ?_⟩ <;> simp [arm, Writable, Attached, plain]

example : (((genc arm "world").bind fun l => run l cempty).bind fun s => s.frames "shoulder") =
    some ⟨"base", 2, some ⟨true, "q0", 5, (0, 0, 1)⟩, some (7, [1, 0, 0, 0, 1, 0, 0, 0, 1]),
      [(.box (1, 2, 3), ⟨(0, 1, 0), 1, (0, 0, 0), true, false, false, 2⟩),
       (.mesh "hand", ⟨(0, 1, 1), 1, (0, 0, 0), true, true, false, 1⟩)]⟩ := by decide +kernel

example : (((genc arm "world").bind fun l => run l cempty).bind fun s => s.limits "q0" .acc) = some (-2, 2) := by
  decide +kernel

example : (((genc arm "world").bind fun l => run l cempty).map fun s => s.allowed) = some [("base", "shoulder")] := by
  decide +kernel

/-- A scene graph of one fixed frame. -/
def single (f : Frame ℚ Nat) : LispSg ℚ Nat := ⟨[("a", f)], fun _ => none, []⟩

/-- C160 fails: the mass of a fixed frame is not in the compiled scene graph. -/
theorem C160_inertial_violates : ∃ (f : Frame ℚ Nat) (calls : List (Call ℚ Nat)) (s : CSg ℚ Nat) (c : CFrame ℚ Nat),
    f.inertial = some (7, [1, 0, 0, 0, 1, 0, 0, 0, 1]) ∧ genc (single f) "" = some calls ∧
      run calls cempty = some s ∧ s.frames "a" = some c ∧ c.inertial = none :=
  ⟨⟨none, 0, none, some (7, [1, 0, 0, 0, 1, 0, 0, 0, 1]), []⟩, _, _, _, rfl, rfl, rfl, rfl, rfl⟩

/-- C160 fails: a torus, which scene graphs made in Lisp show, stops the compiler. -/
theorem C160_torus_violates : ∃ f : Frame ℚ Nat, genc (single f) "" = none ∧
    ((run (mutable (single f)) cempty).bind fun s => s.frames "a") =
      some ⟨"", 0, none, none, [(.torus 1 2 3, optCreate)]⟩ :=
  ⟨⟨none, 0, none, none, [⟨.torus 1 2 3, plain, false⟩]⟩, by decide +kernel, by decide +kernel⟩

/-- C160 fails: a frame whose parent is the empty name hangs at the global frame, not at the root asked for. -/
theorem C160_root_violates : ∃ f : Frame ℚ Nat, f.parent = some "" ∧
    (((genc (single f) "world").bind fun l => run l cempty).bind fun s => s.frames "a") =
      some ⟨"", 0, none, none, []⟩ :=
  ⟨⟨some "", 0, none, none, []⟩, rfl, by decide +kernel⟩

/-- C160 fails: allowed collisions of frames that have been removed make the compiled function use a null pointer. -/
theorem C160_removed_violates : ∃ sg : LispSg ℚ Nat, sg.allowed = [("a", "b")] ∧
    ((genc sg "").map fun l => (run l cempty).isSome) = some false :=
  ⟨⟨[("a", ⟨none, 0, none, none, []⟩)], fun _ => none, [("a", "b")]⟩, rfl, by decide +kernel⟩

/-- C160 fails: geometry without a colour has one colour if it is compiled and another if it is made in Lisp. -/
theorem C160_color_violates : ∃ f : Frame ℚ Nat,
    (((genc (single f) "").bind fun l => run l cempty).bind fun s => (s.frames "a").map fun c =>
      c.geometry.map fun g => g.2.color) = some [(4 / 5, 4 / 5, 4 / 5)] ∧
    ((run (mutable (single f)) cempty).bind fun s => (s.frames "a").map fun c => c.geometry.map fun g => g.2.color) =
      some [(1 / 2, 1 / 2, 1 / 2)] :=
  ⟨⟨none, 0, none, none, [⟨.sphere 1, plain, false⟩]⟩, by decide +kernel, by decide +kernel⟩

end Verif.SgGen
