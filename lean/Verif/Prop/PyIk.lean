import Verif.Model.PyIk
import Verif.Prop.IkCx

/-!
# C171: inverse kinematics from Python solves for what was set last
-/

namespace Verif.PyIk

open Verif.IkCx

variable {P R F : Type}

/-! ## Specification: what was set last -/

/-- The last of the values that `f` finds in calls, or else `d`. -/
def lastSet {A : Type} (f : Call R F → Option A) (d : A) (cs : List (Call R F)) : A :=
  (cs.reverse.findSome? f).getD d

def refOf (ident : R) : Call R F → Option (Option R)
  | .setRef (some r) => some (some r)
  | .setRef none => some (some ident)
  | _ => none

def seedIn (s : Scene P) : Call R F → Option (List ℝ)
  | .setSeed q => some q
  | .seedCenter => some s.center
  | .seedRand r => some r
  | _ => none

def objIn : Call R F → Option F
  | .setObj f => some f
  | _ => none

def angleIn : Call R F → Option ℝ
  | .tolAngle t => some t
  | _ => none

def transIn : Call R F → Option ℝ
  | .tolTrans t => some t
  | _ => none

def restartIn : Call R F → Option ℝ
  | .restart t => some t
  | _ => none

/-- Seeds have as many numbers as the sub-scenegraph has variables. -/
def SeedFits (s : Scene P) : Call R F → Prop
  | .setSeed q => q.length = s.ids.length
  | .seedRand r => r.length = s.ids.length
  | _ => True

theorem lastSet_cons {A : Type} (f : Call R F → Option A) (d : A) (c : Call R F) (cs : List (Call R F)) :
    lastSet f d (c :: cs) = lastSet f ((f c).getD d) cs := by
  simp only [lastSet, List.reverse_cons, List.findSome?_append]
  cases h : List.findSome? f cs.reverse with
  | some a => simp
  | none => cases h2 : f c <;> simp [h2]

theorem call_spec (s : Scene P) (g : s.Good) (h : s.ids ≠ []) (ident : R) (st : St P R F)
    (hl : st.cx.seed.length = s.ids.length) (c : Call R F) (hc : SeedFits s c) :
    ∃ st', call s ident st c = some st' ∧ st'.cx.seed.length = s.ids.length ∧
      st'.ref = (refOf ident c).getD st.ref ∧ st'.cx.seed = (seedIn s c).getD st.cx.seed ∧
      st'.parm.obj = (objIn c).getD st.parm.obj ∧ st'.parm.tolAngle = (angleIn c).getD st.parm.tolAngle ∧
      st'.parm.tolTrans = (transIn c).getD st.parm.tolTrans ∧
      st'.cx.restart = (restartIn c).getD st.cx.restart ∧
      st'.cx.frames = st.cx.frames ∧ st'.cx.start = st.cx.start ∧ st'.cx.fk = st.cx.fk := by
  have hp : s.ids.length ≠ 0 := by simpa using h
  cases c with
  | setRef r => cases r <;> exact ⟨_, rfl, hl, rfl, rfl, rfl, rfl, rfl, rfl, rfl, rfl, rfl⟩
  | setSeed q =>
    have hq : q.length = s.ids.length := hc
    refine ⟨{ st with cx := { st.cx with seed := q } }, ?_, hq, rfl, rfl, rfl, rfl, rfl, rfl, rfl, rfl, rfl⟩
    simp [call, step, IkCx.setSeed, hq, hl]
  | seedCenter =>
    refine ⟨{ st with cx := { st.cx with seed := s.center } }, ?_, g.center, rfl, rfl, rfl, rfl, rfl, rfl, rfl,
      rfl, rfl⟩
    simp only [call, step, IkCx.seedCenter, IkCx.setSeed, hl, if_neg hp, g.center, ne_eq, not_true_eq_false,
      if_false, Option.map_some]
  | seedRand q =>
    have hq : q.length = s.ids.length := hc
    refine ⟨{ st with cx := { st.cx with seed := q } }, ?_, hq, rfl, rfl, rfl, rfl, rfl, rfl, rfl, rfl, rfl⟩
    simp [call, step, IkCx.setSeed, hq, hl]
  | setObj f => exact ⟨_, rfl, hl, rfl, rfl, rfl, rfl, rfl, rfl, rfl, rfl, rfl⟩
  | tolAngle t => exact ⟨_, rfl, hl, rfl, rfl, rfl, rfl, rfl, rfl, rfl, rfl, rfl⟩
  | tolTrans t => exact ⟨_, rfl, hl, rfl, rfl, rfl, rfl, rfl, rfl, rfl, rfl, rfl⟩
  | restart t => exact ⟨_, rfl, hl, rfl, rfl, rfl, rfl, rfl, rfl, rfl, rfl, rfl⟩

theorem calls_spec (s : Scene P) (g : s.Good) (h : s.ids ≠ []) (ident : R) (cs : List (Call R F)) :
    ∀ st : St P R F, st.cx.seed.length = s.ids.length → (∀ c ∈ cs, SeedFits s c) →
    ∃ st', calls s ident st cs = some st' ∧ st'.cx.seed.length = s.ids.length ∧
      st'.ref = lastSet (refOf ident) st.ref cs ∧ st'.cx.seed = lastSet (seedIn s) st.cx.seed cs ∧
      st'.parm = ⟨lastSet angleIn st.parm.tolAngle cs, lastSet transIn st.parm.tolTrans cs,
        lastSet objIn st.parm.obj cs⟩ ∧
      st'.cx.restart = lastSet restartIn st.cx.restart cs ∧
      st'.cx.frames = st.cx.frames ∧ st'.cx.start = st.cx.start ∧ st'.cx.fk = st.cx.fk := by
  induction cs with
  | nil => intro st hl _; exact ⟨st, rfl, hl, rfl, rfl, rfl, rfl, rfl, rfl, rfl⟩
  | cons c cs ih =>
    intro st hl hc
    obtain ⟨s1, e1, l1, a1, a2, a3, a4, a5, a6, a7, a8, a9⟩ :=
      call_spec s g h ident st hl c (hc c (by simp))
    obtain ⟨s2, e2, l2, b1, b2, b3, b4, b5, b6, b7⟩ := ih s1 l1 fun c hc' => hc c (by simp [hc'])
    refine ⟨s2, by rw [calls, e1, Option.bind_some, e2], l2, ?_, ?_, ?_, ?_, b5.trans a7, b6.trans a8, b7.trans a9⟩
    · rw [b1, a1, lastSet_cons]
    · rw [b2, a2, lastSet_cons]
    · rw [b3, a3, a4, a5, lastSet_cons, lastSet_cons, lastSet_cons]
    · rw [b4, a6, lastSet_cons]

/-! ## Theorems -/

/-- After any calls, `solve` lets the algorithms find a configuration for the reference set last, with the
tolerances, the objective and the restart time set last, from the seed set last (at first the center), with
zeros for the other variables of the scene; it gives the vector exactly if they succeed, and raises exactly
if there has been no reference. Missing: sub-scenegraphs without variables or end effectors, and seeds of
another length, for which it does not hold. -/
theorem C171_solve_partial (s : Scene P) (g : s.Good) (h : s.ids ≠ []) (f : Int) (fs : List Int)
    (he : s.ees = f :: fs) (ident : R) (p : Parm F) (old : List ℝ) (ho : old.length = s.ids.length)
    (cs : List (Call R F)) (hc : ∀ c ∈ cs, SeedFits s c) (solver : Job P R F → Int × List ℝ) :
    ∃ st, ((init s p old).bind fun st => calls s ident st cs) = some st ∧
      match lastSet (refOf ident) none cs with
      | none => solve s solver st = some .raised
      | some r => ∃ k : Kin P, k.frame = f ∧ k.fk = s.fkOf (List.replicate s.nAll 0) ∧
          k.qSub = lastSet (seedIn s) s.center cs ∧
          (∀ (j : Nat) (hj : j < s.ids.length), k.qAll[s.ids[j]]? = k.qSub[j]?) ∧
          (∀ i, i ∉ s.ids → k.qAll[i]? = (List.replicate s.nAll (0 : ℝ))[i]?) ∧
          ∃ res, solver ⟨r, k, ⟨lastSet angleIn p.tolAngle cs, lastSet transIn p.tolTrans cs,
              lastSet objIn p.obj cs⟩, lastSet restartIn 0 cs⟩ = res ∧
            (res.1 = 0 → solve s solver st = some (.got (some res.2))) ∧
            (res.1 ≠ 0 → solve s solver st = some (.got none)) := by
  simp only [init, create_spec s g h (-2) old ho, if_true, Option.map_some, Option.bind_some]
  obtain ⟨st, e, l, b1, b2, b3, b4, b5, b6, b7⟩ := calls_spec s g h ident cs
    ⟨none, ⟨s.ees, List.replicate s.nAll 0, s.center, s.fkOf (List.replicate s.nAll 0),
      s.fkOf (List.replicate s.nAll 0), 0⟩, p⟩ g.center hc
  refine ⟨st, e, ?_⟩
  simp only at b1 b2 b3 b4 b5 b6 b7
  cases hr : lastSet (refOf ident) none cs with
  | none => simp [solve, b1, hr]
  | some r =>
    obtain ⟨k, k0, k1, k2, k3, k4, k5⟩ := C145_solve_partial s g st.cx (by rw [b6]; simp) l f fs (by rw [b5, he])
    refine ⟨k, k1, k2.trans b7, k3.trans b2, fun j hj => by rw [k4 j hj, k3], fun i hi => by rw [k5 i hi, b6], _,
      rfl, fun h0 => ?_, fun h0 => ?_⟩
    · simp only [solve, b1, hr, k0, Option.map_some, b3, b4, h0, if_true]
    · simp only [solve, b1, hr, k0, Option.map_some, b3, b4, h0, if_false]

/-- Violated: a seed with another number of elements than the sub-scenegraph has variables ends the process,
where an exception would be raised for a configuration of a scene graph. -/
theorem C171_seed_violates (s : Scene P) (ident : R) (st : St P R F) (q : List ℝ)
    (h : q.length ≠ st.cx.seed.length) : call s ident st (.setSeed q) = none := by
  simp [call, step, IkCx.setSeed, h]

/-- Violated: without end effectors, `solve` reads a frame that is not there, or raises. -/
theorem C171_no_frame_violates (s : Scene P) (solver : Job P R F → Int × List ℝ) (st : St P R F) (r : R)
    (hr : st.ref = some r) (h : st.cx.frames = []) : solve s solver st = none := by
  simp [solve, hr, kin, h]

/-- Violated: there is no object for a sub-scenegraph without variables. -/
theorem C171_no_variable_violates (s : Scene P) (p : Parm F) :
    (init s p [] : Option (St P R F)) = none := by
  simp [init, create, IkCx.seedCenter]

/-! ## Cases -/

/-- The hypotheses of `C171_solve_partial` hold, and what was set last is not what there was first. -/
example : two.Good ∧ two.ids ≠ [] ∧ two.ees = 2 :: [] ∧ ([0] : List ℝ).length = two.ids.length ∧
    (∀ c ∈ [Call.setRef (some (3 : Nat)), .setSeed [4], .setObj "f", .setRef (some 7), .restart 2], SeedFits two c) ∧
    lastSet (refOf 0) none [Call.setRef (some (3 : Nat)), .setSeed [4], .setObj "f", .setRef (some 7), .restart 2] =
      some 7 ∧
    lastSet (seedIn two) two.center
      [Call.setRef (some (3 : Nat)), .setSeed [4], .setObj "f", .setRef (some 7), .restart 2] = [4] := by
  refine ⟨two_good, by simp [two], rfl, rfl, ?_, rfl, rfl⟩
  intro c hc
  simp only [List.mem_cons, List.not_mem_nil, or_false] at hc
  rcases hc with rfl | rfl | rfl | rfl | rfl <;> simp [SeedFits, two]

/-- The hypotheses of the violations hold. -/
example : ∃ st : St ℝ Nat String, init two ⟨1, 1, "f"⟩ [0] = some st ∧ ([1, 2] : List ℝ).length ≠ st.cx.seed.length := by
  refine ⟨_, by rw [init, create_spec two two_good (by simp [two]) (-2) [0] rfl]; rfl, by simp [two]⟩

end Verif.PyIk
