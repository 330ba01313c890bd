import Verif.Model.TjXPb
import Verif.Prop.TrajGen
import Verif.Prop.TrajList
import Verif.Prop.TfCheck
import Verif.Prop.TfRate

/-!
# Blended workspace trajectories (C134)
-/

namespace Verif.TjXPb

open Verif.Tf Verif.Ct Set Quaternion

/-! ## Specification -/

/-- The pose a waypoint asks for. -/
noncomputable def pose (s : CtState) : Qutr :=
  match s.X with
  | some E => ⟨⟨E 0, E 1, E 2, E 3⟩, ⟨E 4, E 5, E 6⟩⟩
  | none => ⟨⟨0, 0, 0, 1⟩, ⟨0, 0, 0⟩⟩

/-- Some coordinate of the translations differs by more than a thousandth. -/
def Apart (a b : CtState) : Prop :=
  1 / 1000 < |(pose a).v.x - (pose b).v.x| ∨ 1 / 1000 < |(pose a).v.y - (pose b).v.y| ∨
    1 / 1000 < |(pose a).v.z - (pose b).v.z|

/-- The first three of six numbers. -/
def tra (x : Fin 6 → ℝ) : V3 := ⟨x 0, x 1, x 2⟩

/-- The last three of six numbers. -/
def rov (x : Fin 6 → ℝ) : V3 := ⟨x 3, x 4, x 5⟩

/-- `r` is a rotation vector of the rotation of `q`, within `2^-85`. -/
def TurnsTo (r : V3) (q : Quat) : Prop :=
  ‖r.rotvecDen - q.den‖ ≤ 1 / 2 ^ 85 ∨ ‖r.rotvecDen + q.den‖ ≤ 1 / 2 ^ 85

/-- Evaluation gives the pose with translation `tra (Q t)` and rotation vector `rov (Q t)` at the times
from `0` to `T`, and fails at all others. -/
def FollowsX (segs : List SegX) (T : ℝ) (Q : ℝ → Fin 6 → ℝ) : Prop :=
  ∀ st t,
    (t ∈ Icc 0 T → ∃ st' it, listEvalX segs none st t = some (true, st', it) ∧ st'.X.v = tra (Q t) ∧
      ‖st'.X.q.den - (rov (Q t)).rotvecDen‖ ≤ 1 / 2 ^ 86 ∧
      (1 / 2 ^ 12 ≤ vnorm (rov (Q t)) → st'.X.q.den = (rov (Q t)).rotvecDen)) ∧
    (t ∉ Icc 0 T → ∃ it, listEvalX segs none st t = some (false, st, it))

/-! ## Proofs -/

theorem pbEval_false {n : Nat} (p : Option (Pb n)) (c : Pb n) (nx : Option (Pb n)) (st : St n) (t : ℝ)
    (h : (pbEval p c nx st t).1 = false) : (pbEval p c nx st t).2 = st := by
  unfold pbEval at h ⊢
  dsimp only at h ⊢
  split
  · rename_i hc; rw [if_pos hc] at h; simp at h
  · rename_i hc
    rw [if_neg hc] at h
    split
    · rfl
    · rename_i m
      dsimp only at h ⊢
      split
      · rename_i hm; rw [if_pos hm] at h; simp at h
      · rfl

noncomputable def poseAt (x : Fin 6 → ℝ) : Qutr := ⟨rotvec2quat (rov x), tra x⟩

theorem evalFromX_eq (junk : St 6) (cs : List (Pb 6)) : ∀ (p : Option (Pb 6)) (i : Nat) (st : StX) (t : ℝ),
    evalFromX (pbSegsX junk p cs) i st t =
      ((evalFrom (pbSegs p cs) i junk t).1,
        (if (evalFrom (pbSegs p cs) i junk t).1 then
          { st with X := poseAt (evalFrom (pbSegs p cs) i junk t).2.1.q } else st),
        (evalFrom (pbSegs p cs) i junk t).2.2) := by
  induction cs with
  | nil => intro p i st t; simp [pbSegsX, pbSegs, evalFromX, evalFrom]
  | cons c cs ih =>
    intro p i st t
    simp only [pbSegsX, pbSegs, evalFromX, evalFrom, pbEvalX]
    rcases Bool.eq_false_or_eq_true (pbEval p c cs.head? junk t).1 with hb | hb
    · simp [hb, poseAt, rov, tra]
    · have hs := pbEval_false p c cs.head? junk t hb
      simp only [hb, hs, Bool.false_eq_true, if_false]
      cases cs with
      | nil => simp [pbSegsX, pbSegs]
      | cons d cs =>
        have := ih (some c) (i + 1) st t
        simp only [pbSegsX, pbSegs] at this ⊢
        exact this

theorem followsX_of (junk : St 6) (cs : List (Pb 6)) (T : ℝ) (Q D : ℝ → Fin 6 → ℝ)
    (h : Follows (pbSegs none cs) T Q D) : FollowsX (pbSegsX junk none cs) T Q := by
  intro st t
  have hne : cs ≠ [] := by
    rintro rfl
    by_cases ht : t ∈ Icc 0 T
    · obtain ⟨st', it, e, _⟩ := (h junk t).1 ht; simp [pbSegs, listEval] at e
    · obtain ⟨st', it, e⟩ := (h junk t).2 ht; simp [pbSegs, listEval] at e
  obtain ⟨c, cs, rfl⟩ := List.exists_cons_of_ne_nil hne
  have hX : listEvalX (pbSegsX junk none (c :: cs)) none st t =
      some (evalFromX (pbSegsX junk none (c :: cs)) 0 st t) := if_neg (by simp [pbSegsX])
  have hY : listEval (pbSegs none (c :: cs)) none junk t =
      some (evalFrom (pbSegs none (c :: cs)) 0 junk t) := if_neg (by simp [pbSegs])
  refine ⟨fun ht => ?_, fun ht => ?_⟩
  · obtain ⟨st', it, e, hq, _⟩ := (h junk t).1 ht
    rw [hY, Option.some.injEq] at e
    rw [hX, evalFromX_eq, e]
    simp only [if_true]
    refine ⟨_, _, rfl, ?_⟩
    rw [hq]
    refine ⟨rfl, (C30_rotvec2quat _).2.1, fun hl => ((C30_rotvec2quat _).1 hl).1⟩
  · obtain ⟨st', it, e⟩ := (h junk t).2 ht
    rw [hY, Option.some.injEq] at e
    rw [hX, evalFromX_eq, e]
    exact ⟨it, rfl⟩

theorem rotvecDen_zero : (⟨0, 0, 0⟩ : V3).rotvecDen = 1 := by
  have : (⟨0, 0, 0⟩ : V3).pure = 0 := by ext <;> simp
  rw [V3.rotvecDen, this, smul_zero, NormedSpace.exp_zero]

theorem vec_zero_of {q : Quat} (h : vnorm q.vec = 0) : q.x = 0 ∧ q.y = 0 ∧ q.z = 0 := by
  have h2 := vnorm_sq q.vec
  rw [h] at h2
  simp only [vdot, Quat.vec] at h2
  refine ⟨?_, ?_, ?_⟩ <;> nlinarith [sq_nonneg q.x, sq_nonneg q.y, sq_nonneg q.z]

theorem near_zero (near : V3) : rotvecNear ⟨0, 0, 0⟩ near = ⟨0, 0, 0⟩ := by
  have hz : ∀ k : ℤ, rotvecPermute ⟨0, 0, 0⟩ k = ⟨0, 0, 0⟩ := by
    intro k
    have h1 : rotvec2quat ⟨0, 0, 0⟩ = ⟨0, 0, 0, (rotvec2quat ⟨0, 0, 0⟩).w⟩ := by
      simp [rotvec2quat]
    have h2 : (rotvec2axang ⟨0, 0, 0⟩).axis = ⟨0, 0, 0⟩ := by
      unfold rotvec2axang
      rw [if_pos (by norm_num [vdot]), h1]
      simp [quat2axang, vnorm, vdot, Quat.vec]
    simp [rotvecPermute, axang2rotvec, axangPermute, h2, vscal]
  simp [rotvecNear, hz]

theorem turns_near (q : Quat) (h : Unit q) (near : V3) : TurnsTo (quat2rotvecNear q near) q := by
  have hn : qnorm q = 1 := by rw [C21_qnorm]; exact (Unit.iff_norm _).1 h
  unfold quat2rotvecNear
  by_cases hv : vnorm q.vec = 0
  · obtain ⟨hx, hy, hz⟩ := vec_zero_of hv
    have hr : axang2rotvec (quat2axang q) = ⟨0, 0, 0⟩ := by
      simp [quat2axang, hv, axang2rotvec, vscal]
    rw [hr, near_zero]
    unfold TurnsTo
    rw [rotvecDen_zero]
    have hw : q.w = 1 ∨ q.w = -1 := by
      have h' := h
      unfold Tf.Unit at h'
      rw [hx, hy, hz] at h'
      apply mul_self_eq_one_iff.1
      nlinarith
    have hq : q.den = (q.w : ℍ[ℝ]) := by ext <;> simp [hx, hy, hz]
    rcases hw with hw | hw
    · left; rw [hq, hw]; simp
    · right; rw [hq, hw]; simp
  · obtain ⟨_, h2, _⟩ := C30_quat2axang q (by rw [hn]; norm_num)
    obtain ⟨hax, hden⟩ := h2 hv
    rw [qnormalize_unit h] at hden
    set r := axang2rotvec (quat2axang q) with hr
    have hrd : r.rotvecDen = q.den := by rw [hr, axang_rotvec_den, hden]
    unfold TurnsTo
    by_cases hb : 0.0001 ≤ vnorm r
    · rcases (C30_rotvec_near r near).1 hb with e | e
      · left; rw [e, hrd]; simp
      · right; rw [e, hrd]; simp
    · obtain ⟨h1, _, _⟩ := near_fold near [rotvecPermute r 1, rotvecPermute r 2, rotvecPermute r 3,
        rotvecPermute r (-1), rotvecPermute r (-2), rotvecPermute r (-3)] r
      have hk : rotvecNear r near = r ∨ ∃ k : ℤ, rotvecNear r near = rotvecPermute r k := by
        rcases h1 with h1 | h1
        · exact Or.inl h1
        · simp only [List.mem_cons, List.not_mem_nil, or_false] at h1
          right
          rcases h1 with h1 | h1 | h1 | h1 | h1 | h1 <;> exact ⟨_, h1⟩
      rcases hk with e | ⟨k, e⟩
      · left; rw [e, hrd]; simp
      · rw [e]
        have hb' : vdot r r < 0.0001 * 0.0001 := by
          rw [← vnorm_sq]; push Not at hb
          exact mul_lt_mul'' hb hb (vnorm_nonneg _) (vnorm_nonneg _)
        have hqn : qnorm (rotvec2quat r) ≠ 0 := by
          obtain ⟨_, _, hc⟩ := C30_rotvec2quat r
          intro h0
          rw [h0] at hc
          norm_num at hc
        have hra : rotvec2axang r = quat2axang (rotvec2quat r) := if_pos hb'
        have hd := (C30_rotvec_axang (rotvec2axang r) r).2.2
        obtain ⟨ha1, ha2, _⟩ := C30_quat2axang _ hqn
        by_cases hvq : vnorm (rotvec2quat r).vec = 0
        · have hax : (quat2axang (rotvec2quat r)).axis = ⟨0, 0, 0⟩ := by
            simp [quat2axang, hvq]
          have hp : rotvecPermute r k = ⟨0, 0, 0⟩ := by
            rw [rotvecPermute, hra]
            simp [axang2rotvec, axangPermute, hax, vscal]
          rw [hp, rotvecDen_zero]
          rw [hra, hrd] at hd
          have hu : Unit (axang2quat (quat2axang (rotvec2quat r))) := by
            rw [ha1]; exact (C21_qnormalize _ hqn).1
          have e0 : axang2quat (quat2axang (rotvec2quat r)) =
              ⟨0, 0, 0, (axang2quat (quat2axang (rotvec2quat r))).w⟩ := by
            simp [axang2quat, hax]
          set w := (axang2quat (quat2axang (rotvec2quat r))).w
          rw [e0] at hd hu
          have hw : w = 1 ∨ w = -1 := by
            unfold Tf.Unit at hu
            apply mul_self_eq_one_iff.1
            nlinarith
          have hq : (⟨0, 0, 0, w⟩ : Quat).den = (w : ℍ[ℝ]) := by ext <;> simp
          rw [hq] at hd
          rcases hw with hw | hw
          · left; rw [hw] at hd; simpa using hd
          · right; rw [hw] at hd
            rw [← norm_neg]; simpa [sub_eq_add_neg, add_comm] using hd
        · have hu : vnorm (rotvec2axang r).axis = 1 := by
            rw [hra]; exact (ha2 hvq).1
          rw [(C30_axang2quat _ hu).1, hrd] at hd
          rw [rotvecPermute, axang_rotvec_den]
          rcases (C30_permute _ k hu).1 with e | e
          · left; rw [e]; exact hd
          · right; rw [e, neg_add_eq_sub, norm_sub_rev]; exact hd

/-- The point stored for a waypoint. -/
noncomputable def ptOf (E : Nat → ℝ) (r : V3) : CtState :=
  CtState.mk 6 0 (some (vec6 E r)) none none none none none none none none

/-- What is stored for a waypoint: its translation, and a rotation vector of its rotation. -/
def Rel (s v : CtState) : Prop :=
  ∃ E r, s.X = some E ∧ v = stateClone (ptOf E r) ∧ TurnsTo r (pose s).q

theorem sixth (E : Nat → ℝ) (r : V3) (i : Nat) (hi : i < 6) :
    (stateClone (ptOf E r)).q = some (fun i => if i < 6 then vec6 E r i else 0) ∧
    ((stateClone (ptOf E r)).q.getD fun _ => 0) i = vec6 E r i := by
  simp [stateClone, ptOf, cloneArr, hi]
  rfl

theorem not_same {a b : CtState} (h : Apart a b) {Ea Eb : Nat → ℝ} (ha : a.X = some Ea)
    (hb : b.X = some Eb) (ra rb : V3) : stateEq (stateClone (ptOf Ea ra)) (ptOf Eb rb) = false := by
  rw [← Bool.not_eq_true, stateEq_iff, same_clone]
  rintro ⟨_, _, h3, _⟩
  rcases h3 with ⟨h3, _⟩ | ⟨f, g, hf, hg, h3⟩
  · simp [ptOf] at h3
  · simp only [ptOf, Option.some.injEq] at hf hg h3
    subst hf hg
    have h0 := h3 0 (by norm_num)
    have h1 := h3 1 (by norm_num)
    have h2 := h3 2 (by norm_num)
    simp only [vec6] at h0 h1 h2
    unfold Apart pose at h
    rw [ha, hb] at h
    simp only at h
    rcases h with h | h | h <;> linarith

theorem last_contents (l : PList CtState) : l.list.getLast?.map l.val = l.contents.getLast? := by
  rw [PList.contents, List.getLast?_map]

theorem xLoop_spec (ss : List CtState) : ∀ (l l' : PList CtState) (a v : CtState), l.Wf →
    l.contents.getLast? = some v → (∃ E r, a.X = some E ∧ v = stateClone (ptOf E r)) →
    (a :: ss).IsChain Apart → (∀ s ∈ ss, Tf.Unit (pose s).q) → xLoop l ss = some l' →
    ∃ vs, l'.contents = l.contents ++ vs ∧ List.Forall₂ Rel ss vs := by
  induction ss with
  | nil =>
    intro l l' a v _ _ _ _ _ h
    simp only [xLoop, Option.some.injEq] at h
    subst h
    exact ⟨[], by simp, .nil⟩
  | cons s ss ih =>
    intro l l' a v hw hl ha hc hu h
    obtain ⟨E, r, hE, rfl⟩ := ha
    rw [xLoop] at h
    cases hs : s.X with
    | none => rw [hs] at h; simp at h
    | some F =>
      rw [hs] at h
      dsimp only at h
      rw [last_contents, hl] at h
      simp only [rotOf, (sixth E r 0 (by norm_num)).1] at h
      set r' := quat2rotvecNear ⟨F 0, F 1, F 2, F 3⟩ ⟨_, _, _⟩ with hr'
      have hp : (pose s).q = ⟨F 0, F 1, F 2, F 3⟩ := by unfold pose; rw [hs]
      have hR : Rel s (stateClone (ptOf F r')) :=
        ⟨F, r', hs, rfl, by rw [hp, hr']; exact turns_near _ (hp ▸ hu s (by simp)) _⟩
      have hadd : ptAdd l (ptOf F r') = l.add (stateClone (ptOf F r')) := by
        rw [ptAdd_eq, hl]
        have := not_same (List.isChain_cons_cons.1 hc).1 hE hs r r'
        simp [this]
      have h' : xLoop (l.add (stateClone (ptOf F r'))) ss = some l' := by rw [← hadd]; exact h
      obtain ⟨vs, e, hvs⟩ := ih _ l' s _ (wf_add hw _)
        (by rw [contents_add hw, List.getLast?_concat]) ⟨F, r', hs, rfl⟩
        (List.isChain_cons_cons.1 hc).2 (fun x hx => hu x (by simp [hx])) h'
      refine ⟨_ :: vs, ?_, .cons hR hvs⟩
      rw [e, contents_add hw]; simp

theorem points_eq (l : PList CtState) :
    points l = l.contents.map (fun v (i : Fin 6) => (v.q.getD fun _ => 0) i) := by
  simp [points, PList.contents, Function.comp_def]

theorem rel_six {s v : CtState} (h : Rel s v) :
    tra (fun i : Fin 6 => (v.q.getD fun _ => 0) i) = (pose s).v ∧
    TurnsTo (rov (fun i : Fin 6 => (v.q.getD fun _ => 0) i)) (pose s).q := by
  obtain ⟨E, r, hE, rfl, ht⟩ := h
  constructor
  · unfold tra pose
    rw [hE]
    simp [stateClone, ptOf, cloneArr, vec6]
  · have : rov (fun i : Fin 6 => ((stateClone (ptOf E r)).q.getD fun _ => 0) i) = r := by
      simp [rov, stateClone, ptOf, cloneArr, vec6]
    rw [this]; exact ht

theorem last_rel {f : CtState → Fin 6 → ℝ} {ss vs : List CtState} (h : List.Forall₂ Rel ss vs) (hne : ss ≠ []) :
    ∀ (s : CtState) (a q : Fin 6 → ℝ), some q = (a :: vs.map f).getLast? →
      ∃ s' v', (s :: ss).getLast? = some s' ∧ Rel s' v' ∧ q = f v' := by
  induction h with
  | nil => exact absurd rfl hne
  | @cons x y xs ys h hs ih =>
    intro s a q hq
    rw [List.map_cons, List.getLast?_cons_cons] at hq
    rw [List.getLast?_cons_cons]
    cases hs with
    | nil => exact ⟨x, y, rfl, h, by simpa using hq⟩
    | cons h' hs' => exact ih (by simp) x _ q hq

/-! ## Properties -/

/-- **C134 (partial).** For waypoints whose neighbours are more than a thousandth apart in some coordinate of the
translation and whose rotations are unit quaternions, whenever the generator finishes: the trajectory follows a
curve of six numbers, the translation and a rotation vector, which is continuously differentiable on exactly the
recorded duration; it starts at rest at the first pose and ends at rest at the last pose, the rates of the six
numbers are within the limits. -/
theorem C134_blend_partial (L : Limits 6) (hL : L.Ok) (fuel : Nat) (d p : CtState) (ps : List CtState)
    (hu : ∀ s ∈ p :: ps, Tf.Unit (pose s).q) (hc : (p :: ps).IsChain Apart)
    (cs : List (Pb 6)) (T : ℝ) (h : xGenerate L fuel d (p :: ps) = some (cs, T)) (junk : St 6) :
    ∃ Q D s, FollowsX (pbSegsX junk none cs) T Q ∧ ContinuousOn D (Icc 0 T) ∧
      (∀ t ∈ Icc 0 T, HasDerivWithinAt Q (D t) (Icc 0 T) t) ∧
      tra (Q 0) = (pose p).v ∧ (∃ r : V3, r.rotvecDen = (pose p).q.den ∧
        ‖(rov (Q 0)).pure - r.pure‖ ≤ 1 / 2 ^ 98) ∧ D 0 = 0 ∧
      (p :: ps).getLast? = some s ∧ (ps ≠ [] → tra (Q T) = (pose s).v ∧
        TurnsTo (rov (Q T)) (pose s).q) ∧ (ps = [] → Q T = Q 0) ∧ D T = 0 ∧
      VelWithin L T D ∧ ∀ c ∈ cs, ∀ i, L.amin i ≤ c.ddq i ∧ c.ddq i ≤ L.amax i := by
  rw [xGenerate] at h
  cases hx : xLoop (PList.empty d) (p :: ps) with
  | none => rw [hx] at h; simp at h
  | some l =>
    rw [hx] at h
    dsimp only at h
    rw [xLoop] at hx
    cases hE : p.X with
    | none => rw [hE] at hx; simp at hx
    | some E =>
      rw [hE] at hx
      dsimp only [PList.empty, List.getLast?_nil, Option.map_none, rotOf] at hx
      have hp : pose p = ⟨⟨E 0, E 1, E 2, E 3⟩, ⟨E 4, E 5, E 6⟩⟩ := by unfold pose; rw [hE]
      have hup := hu p (by simp)
      rw [hp] at hup
      dsimp only at hup
      cases hr : quat2rotvec ⟨E 0, E 1, E 2, E 3⟩ with
      | none => rw [hr] at hx; simp at hx
      | some r =>
        rw [hr] at hx
        dsimp only at hx
        have hne : vnorm (⟨E 0, E 1, E 2, E 3⟩ : Quat).vec ≠ 0 ∨ 0 < E 3 := by
          by_contra hcon
          push Not at hcon
          obtain ⟨h0, h1⟩ := hcon
          obtain ⟨e0, e1, e2⟩ := vec_zero_of h0
          dsimp only at e0 e1 e2
          have e3 : E 3 = -1 := by
            unfold Tf.Unit at hup
            dsimp only at hup
            rw [e0, e1, e2] at hup
            rcases mul_self_eq_one_iff.1 (show E 3 * E 3 = 1 by nlinarith) with h | h
            · linarith
            · exact h
          rw [e0, e1, e2, e3, C30_violates_quat2rotvec.2] at hr
          simp at hr
        obtain ⟨r', R, hr', hR, hRr, _⟩ := C30_quat2rotvec_partial _ hup hne
        rw [hr, Option.some.injEq] at hr'
        subst hr'
        have hw : (PList.empty d).Wf := ⟨List.nodup_nil, by simp [PList.empty]⟩
        have hadd : ptAdd (PList.empty d) (ptOf E r) = (PList.empty d).add (stateClone (ptOf E r)) := by
          rw [ptAdd_eq]; simp [PList.empty, PList.contents]
        have hx' : xLoop ((PList.empty d).add (stateClone (ptOf E r))) ps = some l := by
          rw [← hadd]; exact hx
        have hcon : ((PList.empty d).add (stateClone (ptOf E r))).contents = [stateClone (ptOf E r)] := by
          rw [contents_add hw]; rfl
        obtain ⟨vs, e, hvs⟩ := xLoop_spec ps _ l p _ (wf_add hw _) (by rw [hcon]; rfl)
          ⟨E, r, hE, rfl⟩ hc (fun s hs => hu s (by simp [hs])) hx'
        rw [hcon] at e
        rw [points_eq, e, List.cons_append, List.map_cons, List.nil_append] at h
        obtain ⟨Q, D, hF, hC, hD, hQ0, hD0, hQT, hDT, hV, _, hA⟩ := C47_blend_partial L hL fuel _ _ cs T h
        have htr : tra (fun i : Fin 6 => ((stateClone (ptOf E r)).q.getD fun _ => 0) i) = (pose p).v := by
          rw [hp]; simp [tra, stateClone, ptOf, cloneArr, vec6]
        have hro : rov (fun i : Fin 6 => ((stateClone (ptOf E r)).q.getD fun _ => 0) i) = r := by
          simp [rov, stateClone, ptOf, cloneArr, vec6]
        have hlast : ∃ s, (p :: ps).getLast? = some s ∧ (ps ≠ [] → tra (Q T) = (pose s).v ∧
            TurnsTo (rov (Q T)) (pose s).q) ∧ (ps = [] → Q T = Q 0) := by
          by_cases hn : ps = []
          · subst hn; exact ⟨p, rfl, fun hn => absurd rfl hn, fun _ => by cases hvs; rw [hQ0]; simpa using hQT⟩
          · obtain ⟨s, v, h1, h2, h3⟩ := last_rel hvs hn p _ _ hQT
            exact ⟨s, h1, fun _ => by rw [h3]; exact rel_six h2, fun h => absurd h hn⟩
        obtain ⟨s, hs, hsT, hs1⟩ := hlast
        exact ⟨Q, D, s, followsX_of junk cs T Q D hF, hC, hD, by rw [hQ0, htr],
          ⟨R, by rw [hR, hp], by rw [hQ0, hro]; exact hRr⟩, hD0, hs, hsT, hs1, hDT, hV, hA⟩

/-- A waypoint with the given pose. -/
noncomputable def wp (q : Quat) (v : V3) : CtState :=
  CtState.mk 0 0 none none none none (some (fun i => match i with
    | 0 => q.x | 1 => q.y | 2 => q.z | 3 => q.w | 4 => v.x | 5 => v.y | _ => v.z)) none none none none

theorem pose_wp (q : Quat) (v : V3) : pose (wp q v) = ⟨q, v⟩ := rfl

/-- The evaluation of a trajectory leaves the velocity and the acceleration of the state as they were. -/
theorem C134_violates_rates (junk : St 6) (cs : List (Pb 6)) (it : Option Nat) (st : StX) (t : ℝ)
    (r : Bool × StX × Option Nat) (h : listEvalX (pbSegsX junk none cs) it st t = some r) :
    r.2.1.dX = st.dX ∧ r.2.1.ddX = st.ddX := by
  have key : ∀ (segs : List SegX), (∀ s ∈ segs, ∀ st t, (s st t).2.dX = st.dX ∧ (s st t).2.ddX = st.ddX) →
      ∀ i st t, (evalFromX segs i st t).2.1.dX = st.dX ∧ (evalFromX segs i st t).2.1.ddX = st.ddX := by
    intro segs
    induction segs with
    | nil => intro _ i st t; exact ⟨rfl, rfl⟩
    | cons s rest ih =>
      intro hs i st t
      simp only [evalFromX]
      have h1 := hs s (by simp) st t
      split
      · exact h1
      · split
        · exact h1
        · have := ih (fun s hs' => hs s (by simp [hs'])) (i + 1) (s st t).2 t
          rw [this.1, this.2]; exact h1
  have hseg : ∀ (cs : List (Pb 6)) (p : Option (Pb 6)), ∀ s ∈ pbSegsX junk p cs, ∀ st t,
      (s st t).2.dX = st.dX ∧ (s st t).2.ddX = st.ddX := by
    intro cs
    induction cs with
    | nil => intro p s hs; simp [pbSegsX] at hs
    | cons c cs ih =>
      intro p s hs st t
      simp only [pbSegsX, List.mem_cons] at hs
      rcases hs with rfl | hs
      · simp only [pbEvalX]; split <;> exact ⟨rfl, rfl⟩
      · exact ih _ s hs st t
  unfold listEvalX at h
  split at h
  · simp at h
  · rw [Option.some.injEq] at h
    subst h
    exact key _ (fun s hs => hseg cs none s (List.mem_of_mem_drop hs)) _ _ _

/-- No trajectory can start at an orientation given by the quaternion `-1`, which is the identity. -/
theorem C134_violates_minus_one (L : Limits 6) (fuel : Nat) (d : CtState) (v : V3) (ps : List CtState) :
    Tf.Unit (pose (wp ⟨0, 0, 0, -1⟩ v)).q ∧ xGenerate L fuel d (wp ⟨0, 0, 0, -1⟩ v :: ps) = none := by
  refine ⟨C30_violates_quat2rotvec.1, ?_⟩
  have : rotOf (fun i => match i with
    | 0 => 0 | 1 => 0 | 2 => 0 | 3 => -1 | 4 => v.x | 5 => v.y | _ => v.z) none = none :=
    C30_violates_quat2rotvec.2
  simp [xGenerate, xLoop, wp, PList.empty, this]

theorem quat2rotvec_one : quat2rotvec ⟨0, 0, 0, 1⟩ = some ⟨0, 0, 0⟩ := by
  have h0 : vnorm (⟨0, 0, 0, 1⟩ : Quat).vec = 0 := by simp [vnorm, vdot, Quat.vec]
  have ha : atan2 0 1 = 0 := by
    obtain ⟨_, h1, h2, h3, h4⟩ := polar 0 1 le_rfl (Or.inr one_ne_zero)
    have e : Real.sqrt (0 * 0 + 1 * 1) = 1 := by simp
    rw [e] at h1 h2
    have hc : Real.cos (atan2 0 1) = Real.cos 0 := by rw [Real.cos_zero]; linarith
    exact Real.injOn_cos ⟨h3, h4⟩ ⟨le_rfl, Real.pi_pos.le⟩ hc
  have he : 0 < Real.sqrt (Real.sqrt dblEpsilon) := by
    apply Real.sqrt_pos.2; apply Real.sqrt_pos.2; norm_num [dblEpsilon]
  unfold quat2rotvec
  simp only [h0, ha, if_pos he]
  simp [vscal, Quat.vec]

/-- Six numbers of a translation and a rotation vector. -/
def six (v r : V3) : Fin 6 → ℝ := ![v.x, v.y, v.z, r.x, r.y, r.z]

theorem near_same {q q' : Quat} {v v' r : V3} (hr : quat2rotvec q = some r)
    {r' : V3} (hr' : quat2rotvecNear q' r = r') (L : Limits 6) (fuel : Nat) (d : CtState) :
    ((∀ i, |six v r i - six v' r' i| ≤ 1 / 1000) →
      xGenerate L fuel d [wp q v, wp q' v'] = pbGenerate L fuel [six v r]) ∧
    ((∃ i, 1 / 1000 < |six v r i - six v' r' i|) →
      xGenerate L fuel d [wp q v, wp q' v'] = pbGenerate L fuel [six v r, six v' r']) := by
  set E : Nat → ℝ := fun i => match i with
    | 0 => q.x | 1 => q.y | 2 => q.z | 3 => q.w | 4 => v.x | 5 => v.y | _ => v.z with hE
  set E' : Nat → ℝ := fun i => match i with
    | 0 => q'.x | 1 => q'.y | 2 => q'.z | 3 => q'.w | 4 => v'.x | 5 => v'.y | _ => v'.z with hE'
  have hw : (PList.empty d).Wf := ⟨List.nodup_nil, by simp [PList.empty]⟩
  have hadd : ptAdd (PList.empty d) (ptOf E r) = (PList.empty d).add (stateClone (ptOf E r)) := by
    rw [ptAdd_eq]; simp [PList.empty, PList.contents]
  set l1 := (PList.empty d).add (stateClone (ptOf E r)) with hl1
  have hcon : l1.contents = [stateClone (ptOf E r)] := by
    rw [hl1, contents_add hw]; rfl
  have e1 : xLoop (PList.empty d) [wp q v, wp q' v'] = xLoop l1 [wp q' v'] := by
    rw [xLoop]
    have : rotOf E ((PList.empty d).list.getLast?.map (PList.empty d).val) = some r := hr
    show (match rotOf E ((PList.empty d).list.getLast?.map (PList.empty d).val) with
      | none => none
      | some r => xLoop (ptAdd (PList.empty d) (ptOf E r)) [wp q' v']) = _
    rw [this]
    simp only [hadd]
  have e2 : xLoop l1 [wp q' v'] = some (ptAdd l1 (ptOf E' r')) := by
    have : rotOf E' (l1.list.getLast?.map l1.val) = some r' := by
      rw [last_contents, hcon, List.getLast?_singleton]
      simp only [rotOf, (sixth E r 0 (by norm_num)).1]
      exact congrArg some hr'
    show (match rotOf E' (l1.list.getLast?.map l1.val) with
      | none => none
      | some r => xLoop (ptAdd l1 (ptOf E' r)) []) = _
    rw [this]
    rfl
  have e3 : xGenerate L fuel d [wp q v, wp q' v'] = pbGenerate L fuel (points (ptAdd l1 (ptOf E' r'))) := by
    simp only [xGenerate, e1, e2]
  have p1 : ∀ (E : Nat → ℝ) (v r : V3), E 4 = v.x → E 5 = v.y → E 6 = v.z →
      (fun i : Fin 6 => ((stateClone (ptOf E r)).q.getD fun _ => 0) i) = six v r := by
    intro E v r h4 h5 h6
    funext i
    fin_cases i <;> simp [stateClone, ptOf, cloneArr, vec6, six, h4, h5, h6]
  have hs : Same (ptOf E r) (ptOf E' r') ↔ ∀ i, |six v r i - six v' r' i| ≤ 1 / 1000 := by
    constructor
    · rintro ⟨_, _, h3, _⟩ i
      rcases h3 with ⟨h3, _⟩ | ⟨f, g, hf, hg, h3⟩
      · simp [ptOf] at h3
      · simp only [ptOf, Option.some.injEq] at hf hg h3
        subst hf hg
        have := h3 i i.isLt
        fin_cases i <;> simpa [vec6, six, hE, hE'] using this
    · intro h
      refine ⟨rfl, rfl, Or.inr ⟨_, _, rfl, rfl, fun i hi => ?_⟩, Or.inl ⟨rfl, rfl⟩, Or.inl ⟨rfl, rfl⟩,
        Or.inl ⟨rfl, rfl⟩, Or.inl ⟨rfl, rfl⟩, Or.inl ⟨rfl, rfl⟩⟩
      have := h ⟨i, hi⟩
      have hi' : i < 6 := hi
      interval_cases i <;> simpa [vec6, six, hE, hE'] using this
  constructor
  · intro h
    have : ptAdd l1 (ptOf E' r') = l1 := by
      rw [ptAdd_eq, hcon, List.getLast?_singleton]
      have := (stateEq_iff _ _).2 ((same_clone _ _).2 (hs.2 h))
      simp [this]
    rw [e3, this, points_eq, hcon, List.map_cons, List.map_nil, p1 E v r rfl rfl rfl]
  · rintro ⟨i, hi⟩
    have : ptAdd l1 (ptOf E' r') = l1.add (stateClone (ptOf E' r')) := by
      rw [ptAdd_eq, hcon, List.getLast?_singleton]
      have : stateEq (stateClone (ptOf E r)) (ptOf E' r') = false := by
        rw [← Bool.not_eq_true, stateEq_iff, same_clone, hs]
        intro h
        exact absurd (h i) (not_le.2 hi)
      simp [this]
    rw [e3, this, points_eq, contents_add (wf_add hw _), hcon]
    simp only [List.singleton_append, List.map_cons, List.map_nil, p1 E v r rfl rfl rfl,
      p1 E' v' r' rfl rfl rfl]

theorem quat2rotvecNear_one (near : V3) : quat2rotvecNear ⟨0, 0, 0, 1⟩ near = ⟨0, 0, 0⟩ := by
  have h0 : vnorm (⟨0, 0, 0, 1⟩ : Quat).vec = 0 := by simp [vnorm, vdot, Quat.vec]
  have hr : axang2rotvec (quat2axang ⟨0, 0, 0, 1⟩) = ⟨0, 0, 0⟩ := by
    simp [quat2axang, h0, axang2rotvec, vscal]
  rw [quat2rotvecNear, hr, near_zero]

/-- Two poses half a thousandth apart: the trajectory is made, stays at the first pose, and never gets to the
second. -/
theorem C134_violates_close (L : Limits 6) (hL : L.Ok) (d : CtState) (junk : St 6) :
    ∃ cs T, xGenerate L 1 d [wp ⟨0, 0, 0, 1⟩ ⟨0, 0, 0⟩, wp ⟨0, 0, 0, 1⟩ ⟨1 / 2000, 0, 0⟩] = some (cs, T) ∧
      ∃ Q, FollowsX (pbSegsX junk none cs) T Q ∧ tra (Q T) = ⟨0, 0, 0⟩ := by
  have h := (near_same (v := ⟨0, 0, 0⟩) (v' := ⟨1 / 2000, 0, 0⟩) quat2rotvec_one
    (quat2rotvecNear_one _) L 1 d).1
    (by intro i; fin_cases i <;> norm_num [six])
  have hg : ∃ cs T, pbGenerate L 1 [six ⟨0, 0, 0⟩ ⟨0, 0, 0⟩] = some (cs, T) :=
    ⟨_, _, rfl⟩
  obtain ⟨cs, T, hg⟩ := hg
  obtain ⟨Q, D, hF, _, _, _, _, hQT, _⟩ := C47_blend_partial L hL 1 _ _ cs T hg
  refine ⟨cs, T, by rw [h, hg], Q, followsX_of junk cs T Q D hF, ?_⟩
  simp only [List.getLast?_singleton, Option.some.injEq] at hQT
  rw [hQT]
  simp [tra, six]

/-! ### Angular velocity -/

/-- Limits: a tenth of a radian per second about `x`, otherwise one. -/
noncomputable def slowX : Limits 6 :=
  ⟨![-1, -1, -1, -1 / 10, -1, -1], ![1, 1, 1, 1 / 10, 1, 1], fun _ => -1, fun _ => 1⟩

theorem slowX_ok : slowX.Ok := by
  intro i; fin_cases i <;> norm_num [slowX]

theorem six5 (v r : V3) : six v r 5 = r.z := rfl
theorem vlo5 : slowX.vmin 5 = -1 := rfl
theorem vhi5 : slowX.vmax 5 = 1 := rfl

theorem dblMin_le_one : dblMin ≤ 1 := by
  unfold dblMin
  rw [div_le_one (by positivity)]
  exact one_le_pow₀ (by norm_num)

theorem pbLimit_last {a b lo hi : Fin 6 → ℝ} {x : ℝ} (hx : 1 ≤ x)
    (h : ∀ i, (if a i - b i < 0 then (a i - b i) / lo i else (a i - b i) / hi i) ≤ x)
    (h5 : x ≤ if a 5 - b 5 < 0 then (a 5 - b 5) / lo 5 else (a 5 - b 5) / hi 5) :
    pbLimit a b lo hi = x :=
  le_antisymm ((pbLimit_le_iff a b lo hi x).2 ⟨dblMin_le_one.trans hx, h⟩)
    (h5.trans (((pbLimit_le_iff a b lo hi _).1 le_rfl).2 5))

/-- Turning from `(0, 3/2, 0)` to `(0, 3/2, 2)`. -/
noncomputable def bent : List (Pb 6) :=
  [⟨six ⟨0, 0, 0⟩ ⟨0, 3 / 2, 0⟩, six ⟨0, 0, 0⟩ ⟨0, 0, 1⟩, six ⟨0, 0, 0⟩ ⟨0, 0, 1⟩, 1 / 2, 2, 1⟩,
   ⟨six ⟨0, 0, 0⟩ ⟨0, 3 / 2, 2⟩, six ⟨0, 0, 0⟩ ⟨0, 0, 0⟩, six ⟨0, 0, 0⟩ ⟨0, 0, -1⟩, 5 / 2, 0, 1⟩]

theorem bent_generate :
    pbGenerate slowX 1 [six ⟨0, 0, 0⟩ ⟨0, 3 / 2, 0⟩, six ⟨0, 0, 0⟩ ⟨0, 3 / 2, 2⟩] = some (bent, 3) := by
  have hi : pbInit slowX [six ⟨0, 0, 0⟩ ⟨0, 3 / 2, 0⟩, six ⟨0, 0, 0⟩ ⟨0, 3 / 2, 2⟩] =
      [⟨six ⟨0, 0, 0⟩ ⟨0, 3 / 2, 0⟩, fun _ => 0, fun _ => 0, 0, 2, 0⟩,
       ⟨six ⟨0, 0, 0⟩ ⟨0, 3 / 2, 2⟩, fun _ => 0, fun _ => 0, 0, dblMax, 0⟩] := by
    have : pbLimit (six ⟨0, 0, 0⟩ ⟨0, 3 / 2, 2⟩) (six ⟨0, 0, 0⟩ ⟨0, 3 / 2, 0⟩) slowX.vmin slowX.vmax = 2 := by
      apply pbLimit_last
      · norm_num
      · intro i; fin_cases i <;> norm_num [six, slowX]
      · rw [six5, six5, vlo5, vhi5]; norm_num
    simp only [pbInit, pbNew, List.head?_cons, List.head?_nil, this]
  have hp : pbPass slowX none (pbInit slowX [six ⟨0, 0, 0⟩ ⟨0, 3 / 2, 0⟩, six ⟨0, 0, 0⟩ ⟨0, 3 / 2, 2⟩]) =
      [⟨six ⟨0, 0, 0⟩ ⟨0, 3 / 2, 0⟩, six ⟨0, 0, 0⟩ ⟨0, 0, 1⟩, six ⟨0, 0, 0⟩ ⟨0, 0, 1⟩, 1 / 2, 2, 1⟩,
       ⟨six ⟨0, 0, 0⟩ ⟨0, 3 / 2, 2⟩, six ⟨0, 0, 0⟩ ⟨0, 0, 0⟩, six ⟨0, 0, 0⟩ ⟨0, 0, -1⟩, 5 / 2, dblMax, 1⟩] := by
    rw [hi]
    have d1 : (fun i => (six ⟨0, 0, 0⟩ ⟨0, 3 / 2, 2⟩ i - six ⟨0, 0, 0⟩ ⟨0, 3 / 2, 0⟩ i) / 2) =
        six ⟨0, 0, 0⟩ ⟨0, 0, 1⟩ := by
      funext i; fin_cases i <;> norm_num [six]
    have z : (fun _ : Fin 6 => (0 : ℝ)) = six ⟨0, 0, 0⟩ ⟨0, 0, 0⟩ := by
      funext i; fin_cases i <;> norm_num [six]
    have b1 : pbLimit (six ⟨0, 0, 0⟩ ⟨0, 0, 1⟩) (six ⟨0, 0, 0⟩ ⟨0, 0, 0⟩) slowX.amin slowX.amax = 1 := by
      apply pbLimit_last
      · norm_num
      · intro i; fin_cases i <;> norm_num [six, slowX]
      · rw [six5, six5]; norm_num [slowX]
    have b2 : pbLimit (six ⟨0, 0, 0⟩ ⟨0, 0, 0⟩) (six ⟨0, 0, 0⟩ ⟨0, 0, 1⟩) slowX.amin slowX.amax = 1 := by
      apply pbLimit_last
      · norm_num
      · intro i; fin_cases i <;> norm_num [six, slowX]
      · rw [six5, six5]; norm_num [slowX]
    have a1 : (fun i => (six ⟨0, 0, 0⟩ ⟨0, 0, 1⟩ i - six ⟨0, 0, 0⟩ ⟨0, 0, 0⟩ i) / 1) =
        six ⟨0, 0, 0⟩ ⟨0, 0, 1⟩ := by
      funext i; fin_cases i <;> norm_num [six]
    have a2 : (fun i => (six ⟨0, 0, 0⟩ ⟨0, 0, 0⟩ i - six ⟨0, 0, 0⟩ ⟨0, 0, 1⟩ i) / 1) =
        six ⟨0, 0, 0⟩ ⟨0, 0, -1⟩ := by
      funext i; fin_cases i <;> norm_num [six]
    simp only [pbPass, pbUpdate, List.head?_cons, List.head?_nil, d1, z, b1, b2]
    norm_num
    exact ⟨d1, by funext i; fin_cases i <;> norm_num [six]⟩
  have hl : pbLoop slowX 1 (pbInit slowX [six ⟨0, 0, 0⟩ ⟨0, 3 / 2, 0⟩, six ⟨0, 0, 0⟩ ⟨0, 3 / 2, 2⟩]) =
      some [⟨six ⟨0, 0, 0⟩ ⟨0, 3 / 2, 0⟩, six ⟨0, 0, 0⟩ ⟨0, 0, 1⟩, six ⟨0, 0, 0⟩ ⟨0, 0, 1⟩, 1 / 2, 2, 1⟩,
       ⟨six ⟨0, 0, 0⟩ ⟨0, 3 / 2, 2⟩, six ⟨0, 0, 0⟩ ⟨0, 0, 0⟩, six ⟨0, 0, 0⟩ ⟨0, 0, -1⟩, 5 / 2, dblMax, 1⟩] := by
    simp only [pbLoop, hp]
    norm_num [pbCheck, pbOverlap, pbFactor, pbScale]
  rw [pbGenerate, if_neg (List.cons_ne_nil _ _), hl]
  simp only [pbLast, Option.bind_eq_bind, Option.bind_some, List.head?_cons, List.getLast?_cons_cons,
    List.getLast?_singleton, List.foldl_cons, List.foldl_nil, bent]
  norm_num

theorem bent_eval (junk : St 6) (st : StX) (t : ℝ) (ht : t ∈ Ioo (1 : ℝ) 2) :
    ∃ st' it, listEvalX (pbSegsX junk none bent) none st t = some (true, st', it) ∧
      st'.X.q = rotvec2quat ⟨0, 3 / 2, t - 1 / 2⟩ := by
  have hne : pbSegsX junk none bent ≠ [] := by simp [pbSegsX, bent]
  have n1 : ¬ ((1 / 2 : ℝ) - 1 / 2 ≤ t ∧ t ≤ 1 / 2 + 1 / 2) := by
    rintro ⟨-, h⟩; have := ht.1; linarith
  have n2 : (1 / 2 : ℝ) + 1 / 2 ≤ t ∧ t ≤ 1 / 2 + 2 - 1 / 2 := by
    have h1 := ht.1; have h2 := ht.2
    constructor <;> linarith
  have hb : ∀ p c m, bent = [c, m] → pbEval p c (some m) junk t =
      (true, ⟨fun i => c.q i + c.dq i * (t - 1 / 2), c.dq, fun _ => 0⟩) := by
    intro p c m e
    simp only [bent, List.cons.injEq, and_true] at e
    obtain ⟨rfl, rfl⟩ := e
    exact (if_neg n1).trans (if_pos n2)
  have e : evalFromX (pbSegsX junk none bent) 0 st t =
      (true, { st with X := ⟨rotvec2quat ⟨0, 3 / 2, t - 1 / 2⟩, ⟨0, 0, 0⟩⟩ }, some 0) := by
    have hb' := hb none _ _ rfl
    simp only [pbSegsX, bent, evalFromX, pbEvalX, List.head?_cons, hb', if_true]
    have e3 : ∀ v r : V3, six v r 3 = r.x := fun _ _ => rfl
    have e4 : ∀ v r : V3, six v r 4 = r.y := fun _ _ => rfl
    have e0 : ∀ v r : V3, six v r 0 = v.x := fun _ _ => rfl
    have e1 : ∀ v r : V3, six v r 1 = v.y := fun _ _ => rfl
    have e2 : ∀ v r : V3, six v r 2 = v.z := fun _ _ => rfl
    simp only [six5, e0, e1, e2, e3, e4]
    norm_num
  refine ⟨_, _, (if_neg hne).trans (congrArg some e), rfl⟩

theorem vnorm_yz (y z n : ℝ) (hn : 0 ≤ n) (h : y * y + z * z = n * n) : vnorm ⟨0, y, z⟩ = n := by
  have : vdot ⟨0, y, z⟩ ⟨0, y, z⟩ = n * n := by simp only [vdot]; linarith
  rw [vnorm, this, Real.sqrt_mul_self hn]

/-- Conversion of a quaternion with a known axis and an angle below a full turn. -/
theorem quat2axang_of {u : V3} (hu : vnorm u = 1) {a : ℝ} (h0 : 0 < a) (h1 : a < Real.pi) :
    atan2 (vnorm (vscal (Real.sin a) u)) (Real.cos a) = a ∧ vnorm (vscal (Real.sin a) u) = Real.sin a := by
  have hs := Real.sin_pos_of_pos_of_lt_pi h0 h1
  have hn : vnorm (vscal (Real.sin a) u) = Real.sin a := by
    rw [vnorm_vscal, hu, mul_one, abs_of_pos hs]
  refine ⟨?_, hn⟩
  rw [hn]
  obtain ⟨_, _, h3, h4, h5⟩ := polar (Real.sin a) (Real.cos a) hs.le (Or.inl hs.ne')
  have e : Real.sqrt (Real.sin a * Real.sin a + Real.cos a * Real.cos a) = 1 := by
    rw [← Real.sqrt_one]; congr 1; nlinarith [Real.sin_sq_add_cos_sq a]
  rw [e, one_mul] at h3
  exact Real.injOn_cos ⟨h4, h5⟩ ⟨h0.le, h1.le⟩ h3

/-- The first orientation. -/
noncomputable def bentFrom : Quat := ⟨0, Real.sin (3 / 4), 0, Real.cos (3 / 4)⟩

/-- The second orientation. -/
noncomputable def bentTo : Quat :=
  ⟨0, Real.sin (5 / 4) * (3 / 5), Real.sin (5 / 4) * (4 / 5), Real.cos (5 / 4)⟩

theorem bentFrom_rotvec : quat2rotvec bentFrom = some ⟨0, 3 / 2, 0⟩ := by
  have hu : vnorm ⟨0, 1, 0⟩ = 1 := vnorm_yz 1 0 1 (by norm_num) (by norm_num)
  have hp : (3 / 4 : ℝ) < Real.pi := by linarith [Real.pi_gt_three]
  obtain ⟨h1, h2⟩ := quat2axang_of hu (by norm_num : (0 : ℝ) < 3 / 4) hp
  have hs := Real.sin_pos_of_pos_of_lt_pi (by norm_num : (0 : ℝ) < 3 / 4) hp
  have e : bentFrom.vec = vscal (Real.sin (3 / 4)) ⟨0, 1, 0⟩ := by
    simp [bentFrom, Quat.vec, vscal]
  have hw : bentFrom.w = Real.cos (3 / 4) := rfl
  rw [h2] at h1
  unfold quat2rotvec
  rw [e, h2, hw]
  have hb : ¬ (3 / 4 < Real.sqrt (Real.sqrt dblEpsilon)) := by
    rw [not_lt]
    apply Real.sqrt_le_iff.2 ⟨by norm_num, ?_⟩
    apply Real.sqrt_le_iff.2 ⟨by norm_num, ?_⟩
    norm_num [dblEpsilon]
  simp only [h1, if_neg hb, if_neg hs.ne']
  congr 1
  ext <;> simp only [vscal] <;> field_simp <;> norm_num

theorem bentTo_near : quat2rotvecNear bentTo ⟨0, 3 / 2, 0⟩ = ⟨0, 3 / 2, 2⟩ := by
  have hu : vnorm ⟨0, 3 / 5, 4 / 5⟩ = 1 := vnorm_yz _ _ 1 (by norm_num) (by norm_num)
  have hp : (5 / 4 : ℝ) < Real.pi := by linarith [Real.pi_gt_three]
  obtain ⟨h1, h2⟩ := quat2axang_of hu (by norm_num : (0 : ℝ) < 5 / 4) hp
  have hs := Real.sin_pos_of_pos_of_lt_pi (by norm_num : (0 : ℝ) < 5 / 4) hp
  have e : bentTo.vec = vscal (Real.sin (5 / 4)) ⟨0, 3 / 5, 4 / 5⟩ := by
    simp [bentTo, Quat.vec, vscal]
  have hw : bentTo.w = Real.cos (5 / 4) := rfl
  have hr : axang2rotvec (quat2axang bentTo) = ⟨0, 3 / 2, 2⟩ := by
    rw [h2] at h1
    unfold quat2axang
    rw [e, hw]
    simp only [h2, h1, gt_iff_lt, if_pos hs]
    simp only [axang2rotvec, vscal, bentTo]
    ext <;> field_simp <;> norm_num
  have hn : vnorm ⟨0, 3 / 2, 2⟩ = 5 / 2 := vnorm_yz _ _ _ (by norm_num) (by norm_num)
  have hk : ∀ k : ℤ, rotvecPermute ⟨0, 3 / 2, 2⟩ k = vscal (5 / 2 + k * 2 * Real.pi) ⟨0, 3 / 5, 4 / 5⟩ := by
    intro k
    rw [rotvecPermute_axis _ k (by rw [hn]; norm_num), hn]
    congr 1
    ext <;> norm_num [vscal]
  have h0 : (⟨0, 3 / 2, 2⟩ : V3) = vscal (5 / 2) ⟨0, 3 / 5, 4 / 5⟩ := by ext <;> norm_num [vscal]
  have hd : vdot ⟨0, 3 / 2, 0⟩ ⟨0, 3 / 5, 4 / 5⟩ = 9 / 10 := by norm_num [vdot]
  have hs0 : ssd3 ⟨0, 3 / 2, 0⟩ ⟨0, 3 / 2, 2⟩ = (5 / 2 - 9 / 10) ^ 2 + (vdot ⟨0, 3 / 2, 0⟩ ⟨0, 3 / 2, 0⟩ - (9 / 10) ^ 2) := by
    rw [h0, ssd3_axis _ _ hu, hd]
  have key : ∀ k : ℤ, k ≠ 0 →
      ¬ ssd3 ⟨0, 3 / 2, 0⟩ (rotvecPermute ⟨0, 3 / 2, 2⟩ k) < ssd3 ⟨0, 3 / 2, 0⟩ ⟨0, 3 / 2, 2⟩ := by
    intro k hk0
    rw [hk, ssd3_axis _ _ hu, hd, hs0, not_lt]
    have hpi := Real.pi_gt_three
    rcases lt_or_gt_of_ne hk0 with h | h
    · have hk1 : (k : ℝ) ≤ -1 := by exact_mod_cast Int.le_sub_one_of_lt h
      have h6 : (k : ℝ) * 2 * Real.pi ≤ -6 := by nlinarith
      nlinarith
    · have hk1 : (1 : ℝ) ≤ k := by exact_mod_cast h
      have h6 : 6 ≤ (k : ℝ) * 2 * Real.pi := by nlinarith
      nlinarith
  rw [quat2rotvecNear, hr, rotvecNear]
  simp only [List.foldl_cons, List.foldl_nil, if_neg (key 1 (by norm_num)), if_neg (key 2 (by norm_num)),
    if_neg (key 3 (by norm_num)), if_neg (key (-1) (by norm_num)), if_neg (key (-2) (by norm_num)),
    if_neg (key (-3) (by norm_num))]

/-- Turning between two orientations with the angular velocity about `x` limited to a tenth: half way it is more
than a quarter. -/
theorem C134_violates_angular_velocity (d : CtState) (junk : St 6) :
    slowX.Ok ∧ slowX.vmax 3 = 1 / 10 ∧
    xGenerate slowX 1 d [wp bentFrom ⟨0, 0, 0⟩, wp bentTo ⟨0, 0, 0⟩] = some (bent, 3) ∧
    ∃ R : ℝ → Quat, (∀ st, ∀ t ∈ Ioo (1 : ℝ) 2, ∃ st' it,
        listEvalX (pbSegsX junk none bent) none st t = some (true, st', it) ∧ st'.X.q = R t) ∧
      ∃ w : V3, 1 / 4 < w.x ∧
        HasDerivAt (fun s => (R s).den) ((1 / 2 : ℝ) • (w.pure * (R (3 / 2)).den)) (3 / 2) := by
  refine ⟨slowX_ok, rfl, ?_, fun t => rotvec2quat ⟨0, 3 / 2, t - 1 / 2⟩, fun st t ht => bent_eval junk st t ht, ?_⟩
  · rw [(near_same bentFrom_rotvec bentTo_near slowX 1 d).2 ⟨5, by rw [six5, six5]; norm_num⟩, bent_generate]
  · have hD : V3.HasDeriv (fun t : ℝ => (⟨0, 3 / 2, t - 1 / 2⟩ : V3)) ⟨0, 0, 1⟩ (3 / 2) := by
      have h : HasDerivAt (fun s : ℝ => ((⟨0, 3 / 2, -1 / 2⟩ : V3)).pure + s • ((⟨0, 0, 1⟩ : V3)).pure)
          ((1 : ℝ) • ((⟨0, 0, 1⟩ : V3)).pure) (3 / 2) := ((hasDerivAt_id _).smul_const _).const_add _
      rw [one_smul] at h
      refine h.congr_of_eventuallyEq (Filter.Eventually.of_forall fun s => ?_)
      ext <;> simp
      ring
    obtain ⟨w, hw, _, he⟩ := C126_diff2vel _ _ _ hD
    have hlen : ∀ t : ℝ, 1 / 2 ^ 12 ≤ vnorm ⟨0, 3 / 2, t - 1 / 2⟩ := by
      intro t
      apply Real.le_sqrt_of_sq_le
      simp only [vdot]
      nlinarith [sq_nonneg (t - 1 / 2)]
    have hR : ∀ t : ℝ, (rotvec2quat ⟨0, 3 / 2, t - 1 / 2⟩).den = V3.rotvecDen ⟨0, 3 / 2, t - 1 / 2⟩ :=
      fun t => ((C30_rotvec2quat _).1 (hlen t)).1
    refine ⟨w, ?_, ?_⟩
    · rw [← he (Or.inl (hlen _))]
      have hsmall : ¬ ((13 / 16 : ℝ) < Real.sqrt dblEpsilon) := by
        rw [not_lt]
        apply Real.sqrt_le_iff.2 ⟨by norm_num, ?_⟩
        norm_num [dblEpsilon]
      set φ := Real.sqrt (13 / 16) with hφ
      have h2 : φ * φ = 13 / 16 := Real.mul_self_sqrt (by norm_num)
      have hφ0 : 0 < φ := Real.sqrt_pos.2 (by norm_num)
      have hl : 9 / 10 ≤ φ := by nlinarith
      have hh : φ ≤ 1 := by nlinarith
      have hx : (rotvecDiff2vel ⟨0, 3 / 2, 3 / 2 - 1 / 2⟩ ⟨0, 0, 1⟩).x = 3 / 4 * (Real.sin φ / φ) ^ 2 := by
        have v2 : vdot (⟨0 / 2, 3 / 2 / 2, (3 / 2 - 1 / 2) / 2⟩ : V3) ⟨0 / 2, 3 / 2 / 2, (3 / 2 - 1 / 2) / 2⟩ =
            13 / 16 := by norm_num [vdot]
        have v3 : ((0 : ℝ) * 0 + 3 / 2 * (3 / 2) + (3 / 2 - 1 / 2) * (3 / 2 - 1 / 2)) / 4 = 13 / 16 := by norm_num
        simp only [rotvecDiff2vel, qdiff2vel, rotvecDiff2qdiff, rotvec2quat, sinccos2, v2, v3, if_neg hsmall,
          ← hφ, qmulcV]
        ring
      show 1 / 4 < (rotvecDiff2vel ⟨0, 3 / 2, 3 / 2 - 1 / 2⟩ ⟨0, 0, 1⟩).x
      rw [hx]
      have hsin := Real.mul_le_sin hφ0.le (by linarith [Real.pi_gt_three])
      have hq : (2 / 3.15 : ℝ) ≤ Real.sin φ / φ := by
        rw [le_div_iff₀ hφ0]
        refine le_trans ?_ hsin
        apply mul_le_mul_of_nonneg_right _ hφ0.le
        apply div_le_div_of_nonneg_left (by norm_num) Real.pi_pos
        linarith [Real.pi_lt_d2]
      nlinarith
    · simp only [hR]; exact hw

/-- The hypotheses hold: a straight move of one metre. -/
example (d : CtState) : slowX.Ok ∧
    (∀ s ∈ [wp ⟨0, 0, 0, 1⟩ ⟨0, 0, 0⟩, wp ⟨0, 0, 0, 1⟩ ⟨1, 0, 0⟩], Tf.Unit (pose s).q) ∧
    [wp ⟨0, 0, 0, 1⟩ ⟨0, 0, 0⟩, wp ⟨0, 0, 0, 1⟩ ⟨1, 0, 0⟩].IsChain Apart ∧
    ∃ cs T, xGenerate slowX 2 d [wp ⟨0, 0, 0, 1⟩ ⟨0, 0, 0⟩, wp ⟨0, 0, 0, 1⟩ ⟨1, 0, 0⟩] = some (cs, T) := by
  refine ⟨slowX_ok, ?_, ?_, ?_⟩
  · intro s hs
    simp only [List.mem_cons, List.not_mem_nil, or_false] at hs
    rcases hs with rfl | rfl <;> norm_num [pose_wp, Tf.Unit]
  · refine .cons_cons (Or.inl ?_) (.singleton _)
    norm_num [pose_wp]
  · rw [(near_same quat2rotvec_one (quat2rotvecNear_one _) slowX 2 d).2 ⟨0, by norm_num [six]⟩]
    exact C47_two_points_partial _ _ _

end Verif.TjXPb
