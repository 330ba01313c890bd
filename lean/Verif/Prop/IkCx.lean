import Verif.Model.IkCx
import Mathlib.Tactic.Linarith
import Mathlib.Data.List.Nodup

/-!
# C145: a context of inverse kinematics keeps what was set last

Full statement: after creation and any sequence of calls of the setters, `aa_rx_ik_get_start`,
`aa_rx_ik_get_seed` and `aa_rx_ik_get_restart_time` give what was set last (at first zeros, the centered
configuration, zero); the poses that the context keeps are those of the start state; the solver reads
the pose of the frame set last (at first that of the parameters, or the first end effector) and starts
from the start state, with the seed for the variables of the sub-scenegraph.

The code violates it: stores through the reference that `aa_rx_ik_get_start` returns do not change the
poses; a name that no frame has, and a sub-scenegraph without end effectors, make the solver read
memory that is not there; so does creation for a sub-scenegraph without variables (an array of length
zero).
-/

namespace Verif.IkCx

variable {P : Type}

/-! ## Specification: what was set last -/

def startOf : Op → Option (List ℝ)
  | .setStart q => some q
  | _ => none

def seedOf (s : Scene P) : Op → Option (List ℝ)
  | .setSeed q => some q
  | .seedCenter => some s.center
  | .seedRand r => some r
  | _ => none

def frameOf (s : Scene P) : Op → Option Int
  | .frameName n => some (s.frameId n)
  | .frameId i => some i
  | _ => none

def restartOf : Op → Option ℝ
  | .restart t => some t
  | _ => none

/-- The last of the values that `f` finds, or else `d`. -/
def last {A : Type} (f : Op → Option A) (d : A) (os : List Op) : A := (os.reverse.findSome? f).getD d

/-- Not a store through a reference. -/
def Setter : Op → Prop
  | .writeStart _ _ | .writeSeed _ _ => False
  | _ => True

/-- The vectors have the lengths that the sub-scenegraph asks for. -/
def Fits (s : Scene P) : Op → Prop
  | .setStart q => q.length = s.nAll
  | .setSeed q => q.length = s.ids.length
  | .seedRand r => r.length = s.ids.length
  | .writeStart i _ => i < s.nAll
  | .writeSeed i _ => i < s.ids.length
  | _ => True

/-- A sub-scenegraph as the library makes it. -/
structure Scene.Good (s : Scene P) : Prop where
  center : s.center.length = s.ids.length
  nodup : s.ids.Nodup
  lt : ∀ i ∈ s.ids, i < s.nAll

theorem last_cons {A : Type} (f : Op → Option A) (d : A) (o : Op) (os : List Op) :
    last f d (o :: os) = last f ((f o).getD d) os := by
  simp only [last, List.reverse_cons, List.findSome?_append]
  cases h : List.findSome? f os.reverse with
  | some a => simp
  | none =>
      cases h2 : f o <;> simp [h2]

/-! ## Theorems -/

/-- What holds of a context at every time. -/
structure Inv (s : Scene P) (cx : Cx P) : Prop where
  start : cx.start.length = s.nAll
  seed : cx.seed.length = s.ids.length

theorem create_spec (s : Scene P) (g : s.Good) (h : s.ids ≠ []) (frame : Int) (old : List ℝ)
    (ho : old.length = s.ids.length) :
    create s frame old = some ⟨if frame = -2 then s.ees else [frame], List.replicate s.nAll 0, s.center,
      s.fkOf (List.replicate s.nAll 0), s.fkOf (List.replicate s.nAll 0), 0⟩ := by
  have hp : s.ids.length ≠ 0 := by simpa using h
  simp only [create, seedCenter, setSeed, ho, if_neg hp, g.center, ne_eq, not_true_eq_false, if_false]

theorem step_inv (s : Scene P) (g : s.Good) (h : s.ids ≠ []) (cx : Cx P) (hc : Inv s cx) (o : Op) (hf : Fits s o) :
    ∃ cx', step s cx o = some cx' ∧ Inv s cx' ∧
      (Setter o → cx'.start = (startOf o).getD cx.start ∧ cx'.seed = (seedOf s o).getD cx.seed ∧
        cx'.restart = (restartOf o).getD cx.restart ∧
        (cx.fk = s.fkOf cx.start → cx'.fk = s.fkOf cx'.start) ∧
        (cx.tf = s.fkOf cx.start → cx'.tf = s.fkOf cx'.start)) ∧
      cx'.frames = ((frameOf s o).map fun i => [i]).getD cx.frames := by
  have hp : s.ids.length ≠ 0 := by simpa using h
  have h1 := hc.start
  have h2 := hc.seed
  cases o with
  | setStart q =>
      have hq : q.length = s.nAll := hf
      exact ⟨{ cx with start := q, tf := s.fkOf q, fk := s.fkOf q }, by simp [step, setStart, hq, h1], ⟨hq, h2⟩,
        fun _ => ⟨rfl, rfl, rfl, fun _ => rfl, fun _ => rfl⟩, rfl⟩
  | setSeed q =>
      have hq : q.length = s.ids.length := hf
      exact ⟨{ cx with seed := q }, by simp [step, setSeed, hq, h2], ⟨h1, hq⟩,
        fun _ => ⟨rfl, rfl, rfl, id, id⟩, rfl⟩
  | seedRand q =>
      have hq : q.length = s.ids.length := hf
      exact ⟨{ cx with seed := q }, by simp [step, setSeed, hq, h2], ⟨h1, hq⟩,
        fun _ => ⟨rfl, rfl, rfl, id, id⟩, rfl⟩
  | seedCenter =>
      exact ⟨{ cx with seed := s.center }, by
          simp only [step, IkCx.seedCenter, IkCx.setSeed, h2, if_neg hp, g.center, ne_eq,
            not_true_eq_false, if_false], ⟨h1, g.center⟩,
        fun _ => ⟨rfl, rfl, rfl, id, id⟩, rfl⟩
  | frameName n => exact ⟨_, rfl, ⟨h1, h2⟩, fun _ => ⟨rfl, rfl, rfl, id, id⟩, rfl⟩
  | frameId n => exact ⟨_, rfl, ⟨h1, h2⟩, fun _ => ⟨rfl, rfl, rfl, id, id⟩, rfl⟩
  | restart n => exact ⟨_, rfl, ⟨h1, h2⟩, fun _ => ⟨rfl, rfl, rfl, id, id⟩, rfl⟩
  | writeStart i v =>
      have hi : i < s.nAll := hf
      exact ⟨{ cx with start := cx.start.set i v }, by simp [step, h1, hi], ⟨by simpa using h1, h2⟩,
        fun hs => hs.elim, rfl⟩
  | writeSeed i v =>
      have hi : i < s.ids.length := hf
      exact ⟨{ cx with seed := cx.seed.set i v }, by simp [step, h2, hi], ⟨h1, by simpa using h2⟩,
        fun hs => hs.elim, rfl⟩

theorem run_spec (s : Scene P) (g : s.Good) (h : s.ids ≠ []) (os : List Op) : ∀ (cx : Cx P), Inv s cx →
    (∀ o ∈ os, Fits s o) → (∀ o ∈ os, Setter o) → cx.fk = s.fkOf cx.start → cx.tf = s.fkOf cx.start →
    ∃ cx', run s cx os = some cx' ∧ Inv s cx' ∧
      cx'.start = last startOf cx.start os ∧ cx'.seed = last (seedOf s) cx.seed os ∧
      cx'.restart = last restartOf cx.restart os ∧
      cx'.frames = last (fun o => (frameOf s o).map fun i => [i]) cx.frames os ∧
      cx'.fk = s.fkOf cx'.start ∧ cx'.tf = s.fkOf cx'.start := by
  induction os with
  | nil => intro cx hc _ _ hk ht; exact ⟨cx, rfl, hc, rfl, rfl, rfl, rfl, hk, ht⟩
  | cons o os ih =>
      intro cx hc hf hs hk ht
      obtain ⟨c1, e1, i1, p1, f1⟩ := step_inv s g h cx hc o (hf o (by simp))
      obtain ⟨a1, a2, a3, a4, a5⟩ := p1 (hs o (by simp))
      obtain ⟨c2, e2, i2, b1, b2, b3, b4, b5⟩ := ih c1 i1 (fun o ho => hf o (by simp [ho]))
        (fun o ho => hs o (by simp [ho])) (a4 hk) (a5 ht)
      refine ⟨c2, by rw [run, e1, Option.bind_some, e2], i2, ?_, ?_, ?_, ?_, b5⟩
      · rw [b1, last_cons, a1]
      · rw [b2, last_cons, a2]
      · rw [b3, last_cons, a3]
      · rw [b4, last_cons, f1]

/-- **C145.** After creation and any sequence of setters, start, seed, restart time and frame are what was
set last, and the poses are those of the start state. -/
theorem C145_last_partial (s : Scene P) (g : s.Good) (h : s.ids ≠ []) (frame : Int) (old : List ℝ)
    (ho : old.length = s.ids.length) (os : List Op) (hf : ∀ o ∈ os, Fits s o) (hs : ∀ o ∈ os, Setter o) :
    ∃ cx, (create s frame old).bind (fun cx => run s cx os) = some cx ∧
      cx.start = last startOf (List.replicate s.nAll 0) os ∧
      cx.seed = last (seedOf s) s.center os ∧
      cx.restart = last restartOf 0 os ∧
      cx.frames = last (fun o => (frameOf s o).map fun i => [i]) (if frame = -2 then s.ees else [frame]) os ∧
      cx.fk = s.fkOf cx.start ∧ cx.tf = s.fkOf cx.start := by
  rw [create_spec s g h frame old ho, Option.bind_some]
  obtain ⟨cx, e, -, r⟩ := run_spec s g h os
    ⟨if frame = -2 then s.ees else [frame], List.replicate s.nAll 0, s.center,
      s.fkOf (List.replicate s.nAll 0), s.fkOf (List.replicate s.nAll 0), 0⟩
    ⟨by simp, g.center⟩ hf hs rfl rfl
  exact ⟨cx, e, r⟩

/-- **C145.** No call with vectors of the right lengths fails, stores through references included, and the
lengths never change. -/
theorem C145_lengths_partial (s : Scene P) (g : s.Good) (h : s.ids ≠ []) (frame : Int) (old : List ℝ)
    (ho : old.length = s.ids.length) (os : List Op) (hf : ∀ o ∈ os, Fits s o) :
    ∃ cx, (create s frame old).bind (fun cx => run s cx os) = some cx ∧ cx.start.length = s.nAll ∧
      cx.seed.length = s.ids.length := by
  rw [create_spec s g h frame old ho, Option.bind_some]
  have go : ∀ (os : List Op) (cx : Cx P), Inv s cx → (∀ o ∈ os, Fits s o) →
      ∃ cx', run s cx os = some cx' ∧ Inv s cx' := by
    intro os
    induction os with
    | nil => intro cx hc _; exact ⟨cx, rfl, hc⟩
    | cons o os ih =>
        intro cx hc hf
        obtain ⟨c1, e1, i1, -⟩ := step_inv s g h cx hc o (hf o (by simp))
        obtain ⟨c2, e2, i2⟩ := ih c1 i1 (fun o ho => hf o (by simp [ho]))
        exact ⟨c2, by rw [run, e1, Option.bind_some, e2], i2⟩
  obtain ⟨cx, e, i⟩ := go os
    ⟨if frame = -2 then s.ees else [frame], List.replicate s.nAll 0, s.center,
      s.fkOf (List.replicate s.nAll 0), s.fkOf (List.replicate s.nAll 0), 0⟩
    ⟨by simp, g.center⟩ hf
  exact ⟨cx, e, i.start, i.seed⟩

/-- **C145.** A vector of another length does not change the context: the call does not return. -/
theorem C145_size (s : Scene P) (cx : Cx P) (q : List ℝ) :
    (q.length ≠ cx.start.length → step s cx (.setStart q) = none) ∧
    (q.length ≠ cx.seed.length → step s cx (.setSeed q) = none) :=
  ⟨fun h => by simp [step, setStart, h], fun h => by simp [step, setSeed, h]⟩

theorem scatter_spec (l : List (Nat × ℝ)) : ∀ (q : List ℝ), (l.map Prod.fst).Nodup → (∀ p ∈ l, p.1 < q.length) →
    (∀ p ∈ l, (l.foldl (fun q iv => q.set iv.1 iv.2) q)[p.1]? = some p.2) ∧
    (∀ i, i ∉ l.map Prod.fst → (l.foldl (fun q iv => q.set iv.1 iv.2) q)[i]? = q[i]?) := by
  induction l with
  | nil => intro q _ _; exact ⟨fun p hp => absurd hp (by simp), fun _ _ => rfl⟩
  | cons a l ih =>
      intro q hn hl
      rw [List.map_cons, List.nodup_cons] at hn
      obtain ⟨h1, h2⟩ := ih (q.set a.1 a.2) hn.2 (fun p hp => by simpa using hl p (by simp [hp]))
      refine ⟨fun p hp => ?_, fun i hi => ?_⟩
      · rcases List.mem_cons.mp hp with rfl | hp
        · rw [List.foldl_cons, h2 _ hn.1]
          rw [List.getElem?_set_self (hl p List.mem_cons_self)]
        · rw [List.foldl_cons]; exact h1 p hp
      · rw [List.map_cons, List.mem_cons, not_or] at hi
        rw [List.foldl_cons, h2 i hi.2, List.getElem?_set_ne (Ne.symm hi.1)]

/-- **C145.** The solver starts with the first frame of the context, its poses, and the start state with the
seed for the variables of the sub-scenegraph. -/
theorem C145_solve_partial (s : Scene P) (g : s.Good) (cx : Cx P) (h1 : cx.start.length = s.nAll)
    (h2 : cx.seed.length = s.ids.length) (f : Int) (fs : List Int) (hf : cx.frames = f :: fs) :
    ∃ k, kin s cx = some k ∧ k.frame = f ∧ k.fk = cx.fk ∧ k.qSub = cx.seed ∧
      (∀ (j : Nat) (hj : j < s.ids.length), k.qAll[s.ids[j]]? = cx.seed[j]?) ∧
      (∀ i, i ∉ s.ids → k.qAll[i]? = cx.start[i]?) := by
  have hm : (s.ids.zip cx.seed).map Prod.fst = s.ids := List.map_fst_zip (by omega)
  obtain ⟨p1, p2⟩ := scatter_spec (s.ids.zip cx.seed) cx.start (by rw [hm]; exact g.nodup)
    (fun p hp => by rw [h1]; exact g.lt p.1 (List.of_mem_zip hp).1)
  refine ⟨_, by rw [kin, hf]; rfl, rfl, rfl, rfl, fun j hj => ?_, fun i hi => p2 i (by rw [hm]; exact hi)⟩
  have hz : j < (s.ids.zip cx.seed).length := by simp [h2, hj]
  have := p1 (s.ids.zip cx.seed)[j] (List.getElem_mem hz)
  rw [List.getElem_zip] at this
  rw [this, List.getElem?_eq_getElem (by omega)]

/-- **C145.** If the frame set last is one of the scene, the pose that the solver begins with is that of this
frame for the start state. -/
theorem C145_pose_partial (s : Scene P) (g : s.Good) (h : s.ids ≠ []) (frame : Int) (old : List ℝ)
    (ho : old.length = s.ids.length) (os : List Op) (hf : ∀ o ∈ os, Fits s o) (hs : ∀ o ∈ os, Setter o)
    (n : Nat) (hn : n < s.nFrames)
    (hl : (last (fun o => (frameOf s o).map fun i => [i]) (if frame = -2 then s.ees else [frame]) os)[0]? =
      some (n : Int)) :
    ((create s frame old).bind fun cx => (run s cx os).bind fun cx => (kin s cx).bind (pose s)) =
      some (s.fkOf (last startOf (List.replicate s.nAll 0) os) n) := by
  obtain ⟨cx, e, a1, -, -, a4, a5, -⟩ := C145_last_partial s g h frame old ho os hf hs
  obtain ⟨c0, e0, e1⟩ := Option.bind_eq_some_iff.mp e
  rw [e0, Option.bind_some, e1, Option.bind_some, kin, a4, hl, Option.map_some, Option.bind_some, pose]
  simp only [Int.natCast_nonneg, Nat.cast_lt, hn, and_self, if_true, Int.toNat_natCast, a5, a1]

/-! ## Cases -/

/-- Two variables and three frames; the pose of a frame is the first variable plus the number of the
frame. -/
noncomputable def two : Scene ℝ :=
  ⟨2, [1], [2], [5], 3, fun n => if n = "tool" then 2 else -2, fun q i => q.getD 0 0 + i⟩

theorem two_good : two.Good := ⟨rfl, by simp [two], by simp [two]⟩

/-- The hypotheses of `C145_pose_partial` hold. -/
example : two.ids ≠ [] ∧ ([0] : List ℝ).length = two.ids.length ∧
    (∀ o ∈ [Op.setStart [1, 2], .seedCenter, .frameName "tool"], Fits two o ∧ Setter o) ∧
    (last (fun o => (frameOf two o).map fun i => [i]) [7] [Op.setStart [1, 2], .seedCenter, .frameName "tool"])[0]? =
      some ((2 : Nat) : Int) := by
  refine ⟨by simp [two], rfl, ?_, ?_⟩
  · intro o ho
    simp only [List.mem_cons, List.not_mem_nil, or_false] at ho
    rcases ho with rfl | rfl | rfl <;> simp [Fits, Setter, two]
  · simp [last, frameOf, two]

/-- VIOLATION. After a name that no frame has, the solver reads the pose of frame -2. -/
theorem C145_unknown_name_violates (s : Scene P) (cx : Cx P) (n : String) (h : s.frameId n = -2) :
    ∃ cx', step s cx (.frameName n) = some cx' ∧ (kin s cx').bind (pose s) = none := by
  refine ⟨_, rfl, ?_⟩
  simp [kin, setFrames, pose, h]

/-- VIOLATION. The root frame, for which the rest of the library takes the identity, is not a frame for the
solver. -/
theorem C145_root_violates (s : Scene P) (cx : Cx P) :
    ∃ cx', step s cx (.frameId (-1)) = some cx' ∧ (kin s cx').bind (pose s) = none := by
  refine ⟨_, rfl, ?_⟩
  simp [kin, setFrames, pose]

/-- VIOLATION. Without end effectors the first of them is read. -/
theorem C145_no_ee_violates (s : Scene P) (g : s.Good) (h : s.ids ≠ []) (old : List ℝ)
    (ho : old.length = s.ids.length) (he : s.ees = []) :
    ∃ cx, create s (-2) old = some cx ∧ kin s cx = none := by
  refine ⟨_, create_spec s g h (-2) old ho, ?_⟩
  simp [kin, he]

/-- VIOLATION. No context for a sub-scenegraph without variables. -/
theorem C145_no_variables_violates (s : Scene P) (h : s.ids = []) (frame : Int) (old : List ℝ)
    (ho : old.length = s.ids.length) : create s frame old = none := by
  have : old.length = 0 := by rw [ho, h]; rfl
  simp [create, seedCenter, this]

/-- VIOLATION. A store through the reference to the start state: the solver begins with the pose for the old
one. -/
theorem C145_write_start_violates : ∃ cx, (create two (-2) [0]).bind (fun cx => run two cx [.writeStart 0 1]) = some cx ∧
    cx.start = [1, 0] ∧ (kin two cx).bind (pose two) = some 2 ∧ two.fkOf cx.start 2 = 3 := by
  rw [create_spec two two_good (by simp [two]) (-2) [0] rfl, Option.bind_some]
  refine ⟨_, rfl, ?_, ?_, ?_⟩
  · simp [two]
  · simp [kin, pose, two]
  · norm_num [two]

end Verif.IkCx
