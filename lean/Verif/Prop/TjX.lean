import Verif.Model.TjX
import Verif.Model.Region
import Verif.Prop.QuatInt
import Verif.Prop.TrajList

/-!
# C122: the interpolated trajectory between two poses

Specification: the pose is read from the arrays of the state after the evaluation. Angular velocity
`w` of a path `Q` of unit quaternions means `Q' = w Q / 2`.
-/

namespace Verif.TjX

open Verif.Tf Verif.Ct
open Verif.Mat (Mem)
open scoped Quaternion
open Quaternion NormedSpace

/-- the pose at an address. -/
def poseAt (m : Mem ℝ) (a : Nat) : Qutr :=
  ⟨⟨m a, m (a + 1), m (a + 2), m (a + 3)⟩, ⟨m (a + 4), m (a + 5), m (a + 6)⟩⟩

/-- the vector at an address. -/
def vecAt (m : Mem ℝ) (a : Nat) : V3 := ⟨m a, m (a + 1), m (a + 2)⟩

/-- The velocity of the interpolation, and the logarithm that is computed for it. -/
theorem slerp_velocity (q1 q2 : Quat) (h1 : Tf.Unit q1) (h2 : Tf.Unit q2) :
    ∃ (l : Quat) (W : V3), qln (qminimize (qmulc q2 q1)) = some l ∧ vnorm W ≤ Real.pi / 2 ∧
      ‖l.vec.pure - W.pure‖ ≤ 1 / 2 ^ 90 ∧
      ∀ t : ℝ, HasDerivAt (fun s => (qslerp s q1 q2).den) (W.pure * (qslerp t q1 q2).den) t := by
  obtain ⟨L, -, hL, he, hp⟩ := C29_geodesic q1 q2 h1 h2
  have n1 : ‖q1.den‖ = 1 := (Unit.iff_norm _).1 h1
  have hs1 : star q1.den * q1.den = 1 := by
    rw [Quaternion.star_mul_self, Quaternion.normSq_eq_norm_mul_self, n1]; simp
  have hs2 : q1.den * star q1.den = 1 := by
    rw [Quaternion.self_mul_star, Quaternion.normSq_eq_norm_mul_self, n1]; simp
  obtain ⟨W, hW⟩ : ∃ W : V3, W.pure = q1.den * L.pure * star q1.den := by
    refine ⟨⟨(q1.den * L.pure * star q1.den).imI, (q1.den * L.pure * star q1.den).imJ,
      (q1.den * L.pure * star q1.den).imK⟩, ?_⟩
    ext <;> simp <;> ring
  have hWn : vnorm W = vnorm L := by
    rw [← norm_pure, hW, norm_mul, norm_mul, _root_.norm_star, n1, norm_pure]; ring
  have hmw : (qmulc q2 q1).w = qdot q1 q2 := by
    simp only [qmulc, qdot, mkq]; ring
  have hmd : (qminimize (qmulc q2 q1)).den = slerpSign q1 q2 • (q2.den * star q1.den) := by
    rw [← (C21_qcmul_qmulc q2 q1).2.1, qminimize, slerpSign, hmw]
    split_ifs
    · ext <;> simp [hmw]
    · rw [one_smul]
  have hmu : Tf.Unit (qminimize (qmulc q2 q1)) := by
    rw [Unit.iff_norm, hmd, norm_smul, norm_mul, _root_.norm_star, n1, (Unit.iff_norm _).1 h2, slerpSign]
    split_ifs <;> norm_num
  have hm0 : 0 ≤ (qminimize (qmulc q2 q1)).w := by
    rw [qminimize]; split_ifs with h
    · simp only; linarith
    · exact not_lt.1 h
  have hWe : exp W.pure = (qminimize (qmulc q2 q1)).den := by
    rw [hmd, ← smul_mul_assoc, ← he, hW]
    let _ : NormedAlgebra ℚ ℍ[ℝ] := NormedAlgebra.restrictScalars ℚ ℝ ℍ[ℝ]
    have := exp_units_conj ⟨q1.den, star q1.den, hs2, hs1⟩ L.pure
    simpa using this
  obtain ⟨c, hq, hc, -⟩ := qln_close hmu hm0 (hWn.le.trans hL) hWe
  refine ⟨_, W, hq, hWn.le.trans hL, ?_, fun t => ?_⟩
  · have e : (⟨c * (qminimize (qmulc q2 q1)).x, c * (qminimize (qmulc q2 q1)).y,
        c * (qminimize (qmulc q2 q1)).z, 0⟩ : Quat).vec.pure = (vscal c (qminimize (qmulc q2 q1)).vec).pure := by
      ext <;> simp [vscal, Quat.vec]
    rw [e]; exact hc
  · have hd := (hasDerivAt_exp_smul_const L.pure t).const_mul q1.den
    have e : (fun s : ℝ => (qslerp s q1 q2).den) = fun s => q1.den * exp (s • L.pure) := funext hp
    rw [e, hp]
    refine hd.congr_deriv ?_
    rw [hW]
    have hcm : exp (t • L.pure) * L.pure = L.pure * exp (t • L.pure) :=
      ((Commute.refl L.pure).smul_left t).exp_left
    rw [hcm, mul_assoc, mul_assoc, ← mul_assoc (star q1.den), hs1, one_mul]

/-- two arrays of seven numbers differ by more than 0.001 somewhere. -/
def Differ (A B : Nat → ℝ) : Prop := ∃ i < 7, 1 / 1000 < |A i - B i|

theorem veq_iff (n : Nat) (a b : Nat → ℝ) : veq n a b = true ↔ ∀ i < n, |a i - b i| ≤ 1 / 1000 := by
  induction n with
  | zero => simp [veq]
  | succ n ih =>
    simp only [veq, Bool.and_eq_true, ih, eps]
    constructor
    · rintro ⟨h1, h2⟩ i hi
      rcases Nat.lt_succ_iff_lt_or_eq.1 hi with h | h
      · exact h1 i h
      · rw [h]; exact of_decide_eq_true h2
    · exact fun h => ⟨fun i hi => h i (by omega), decide_eq_true (h n (by omega))⟩

open Classical in
/-- what is generated for two poses added to an empty list. -/
theorem generate_eq (d : CtState) (A B : Nat → ℝ) :
    slerpGenerate (addQutr (addQutr (PList.empty d) A) B) =
      if (∀ i < 7, |A i - B i| ≤ 1 / 1000) then some none
      else (slerpSeg (qutrOf A) (qutrOf B)).map fun s => some (s, 1) := by
  have hA : ∀ i < 7, (if i < 7 then A i else 0) = A i := fun i hi => if_pos hi
  have hv : veq 7 (fun i => if i < 7 then A i else 0) B = true ↔ ∀ i < 7, |A i - B i| ≤ 1 / 1000 := by
    rw [veq_iff]
    exact ⟨fun h i hi => by have := h i hi; rwa [hA i hi] at this,
      fun h i hi => by rw [hA i hi]; exact h i hi⟩
  by_cases h : ∀ i < 7, |A i - B i| ≤ 1 / 1000
  · rw [if_pos h]
    have := hv.2 h
    simp [addQutr, ptAdd, PList.add, PList.empty, stateClone, cloneArr, stateEq, arrEq, this, slerpGenerate]
  · rw [if_neg h]
    have : veq 7 (fun i => if i < 7 then A i else 0) B = false := by
      rw [Bool.eq_false_iff]; exact fun e => h (hv.1 e)
    simp [addQutr, ptAdd, PList.add, PList.empty, stateClone, cloneArr, stateEq, arrEq, this, slerpGenerate,
      Function.update, qutrOf]

theorem wr_of_not (p : Nat) (l : List ℝ) (m : Mem ℝ) (j : Nat) (h : j < p ∨ p + l.length ≤ j) :
    wr (some p) l m j = m j := by
  unfold wr; exact if_neg (by omega)

theorem wr_of_mem (p : Nat) (l : List ℝ) (m : Mem ℝ) (i : Nat) (h : i < l.length) :
    wr (some p) l m (p + i) = l.getD i 0 := by
  unfold wr
  show (if _ then _ else _) = _
  rw [if_pos (by omega), Nat.add_sub_cancel_left]

/-- a list of numbers is at an address. -/
def Holds (m : Mem ℝ) (a : Nat) (l : List ℝ) : Prop := ∀ i < l.length, m (a + i) = l.getD i 0

/-- what the memory holds after the four copies. -/
theorem writes (x d z e : Nat) (l w : List ℝ) (hl : l.length = 7) (hw : w.length = 6)
    (h1 : x + 7 ≤ d) (h2 : d + 6 ≤ z) (h3 : e + 6 ≤ x) (m : Mem ℝ) :
    Holds (wr (some e) zero6 (wr (some z) zero6 (wr (some d) w (wr (some x) l m)))) x l ∧
    Holds (wr (some e) zero6 (wr (some z) zero6 (wr (some d) w (wr (some x) l m)))) d w ∧
    (∀ j, (j < e ∨ e + 6 ≤ j) → (j < x ∨ x + 7 ≤ j) → (j < d ∨ d + 6 ≤ j) → (j < z ∨ z + 6 ≤ j) →
      wr (some e) zero6 (wr (some z) zero6 (wr (some d) w (wr (some x) l m))) j = m j) := by
  have hz : zero6.length = 6 := rfl
  refine ⟨fun i hi => ?_, fun i hi => ?_, fun j a b c f => ?_⟩
  · rw [wr_of_not _ _ _ _ (by omega), wr_of_not _ _ _ _ (by omega), wr_of_not _ _ _ _ (by omega),
      wr_of_mem _ _ _ _ hi]
  · rw [wr_of_not _ _ _ _ (by omega), wr_of_not _ _ _ _ (by omega), wr_of_mem _ _ _ _ hi]
  · rw [wr_of_not _ _ _ _ (by omega), wr_of_not _ _ _ _ (by omega), wr_of_not _ _ _ _ (by omega),
      wr_of_not _ _ _ _ (by omega)]

theorem holds_pose {m : Mem ℝ} {a : Nat} {E : Qutr} (h : Holds m a (qutrArr E)) : poseAt m a = E := by
  unfold Holds at h
  have h0 := h 0 (by simp [qutrArr])
  have h1 := h 1 (by simp [qutrArr])
  have h2 := h 2 (by simp [qutrArr])
  have h3 := h 3 (by simp [qutrArr])
  have h4 := h 4 (by simp [qutrArr])
  have h5 := h 5 (by simp [qutrArr])
  have h6 := h 6 (by simp [qutrArr])
  simp [qutrArr] at h0 h1 h2 h3 h4 h5 h6
  unfold poseAt
  rw [h0, h1, h2, h3, h4, h5, h6]

theorem holds_vec {m : Mem ℝ} {a : Nat} {v w : V3} (h : Holds m a [v.x, v.y, v.z, w.x, w.y, w.z]) :
    vecAt m a = v ∧ vecAt m (a + 3) = w := by
  unfold Holds at h
  have h0 := h 0 (by simp)
  have h1 := h 1 (by simp)
  have h2 := h 2 (by simp)
  have h3 := h 3 (by simp)
  have h4 := h 4 (by simp)
  have h5 := h 5 (by simp)
  simp at h0 h1 h2 h3 h4 h5
  unfold vecAt
  rw [h0, h1, h2, h3, Nat.add_assoc, h4, Nat.add_assoc, h5]
  exact ⟨rfl, rfl⟩

/-- the pose after an evaluation at `t`, the two velocities and the memory. -/
noncomputable def ends (s : SlerpSeg) (t : ℝ) : Qutr :=
  if t ≤ 0 then s.E0 else if t ≥ s.dt then s.E1 else ⟨qslerp t s.E0.q s.E1.q, linterp3 s.E0.v s.E1.v t⟩

theorem up_le (n : Nat) : n ≤ up n ∧ up n ≤ n + 1 := by unfold up; omega

theorem eval_spec (s : SlerpSeg) (base nq : Nat) (hn : 5 ≤ nq) (t : ℝ) (m : Mem ℝ) :
    poseAt (slerpEval s (stateAlloc base nq) t m).2 (base + 4 * up nq) = ends s t ∧
    (0 < t → t < s.dt →
      vecAt (slerpEval s (stateAlloc base nq) t m).2 (base + 4 * up nq + 8) = s.dv ∧
      vecAt (slerpEval s (stateAlloc base nq) t m).2 (base + 4 * up nq + 8 + 3) = s.dw) ∧
    (∀ j, j < base + 3 * up nq ∨ base + 4 * up nq + 20 ≤ j →
      (slerpEval s (stateAlloc base nq) t m).2 j = m j) := by
  have hu : 6 ≤ up nq := by unfold up; omega
  have h7 : up 7 = 8 := rfl
  have h6 : up 6 = 6 := rfl
  have key := fun (l w : List ℝ) (hl : l.length = 7) (hw : w.length = 6) =>
    writes (base + 4 * up nq) (base + 4 * up nq + 8) (base + 4 * up nq + 8 + 6) (base + 3 * up nq) l w hl hw
      (by omega) (by omega) (by omega) m
  have e : (slerpEval s (stateAlloc base nq) t m).2 = (slerpSegEval s (stateAlloc base nq) t m).2 := by
    unfold slerpEval slerpSegEval; simp
  rw [e]
  unfold slerpSegEval stateAlloc ends
  simp only [h7, h6]
  split_ifs with g1 g2
  · obtain ⟨k1, k2, k3⟩ := key (qutrArr s.E0) zero6 rfl rfl
    exact ⟨holds_pose k1, fun h => absurd g1 (not_le.2 h), fun j h => k3 j (by omega) (by omega) (by omega) (by omega)⟩
  · obtain ⟨k1, k2, k3⟩ := key (qutrArr s.E1) zero6 rfl rfl
    exact ⟨holds_pose k1, fun _ h => absurd g2 (not_le.2 h), fun j h => k3 j (by omega) (by omega) (by omega) (by omega)⟩
  · obtain ⟨k1, k2, k3⟩ := key (qutrArr ⟨qslerp t s.E0.q s.E1.q, linterp3 s.E0.v s.E1.v t⟩)
      [s.dv.x, s.dv.y, s.dv.z, s.dw.x, s.dw.y, s.dw.z] rfl rfl
    exact ⟨holds_pose k1, fun _ _ => holds_vec k2, fun j h => k3 j (by omega) (by omega) (by omega) (by omega)⟩

theorem path_interior (s : SlerpSeg) (hd : s.dt = 1) {t : ℝ} (h0 : 0 < t) (h1 : t < 1) :
    (fun u => ends s u) =ᶠ[nhds t]
      fun u => ⟨qslerp u s.E0.q s.E1.q, linterp3 s.E0.v s.E1.v u⟩ := by
  filter_upwards [Ioo_mem_nhds h0 h1] with u hu
  unfold ends
  rw [hd, if_neg (not_le.2 hu.1), if_neg (not_le.2 hu.2)]

/-- The rotation matrices along the path, with the parameter kept between 0 and 1. -/
theorem ends_clamp (s : SlerpSeg) (hd : s.dt = 1) (h0 : Tf.Unit s.E0.q) (h1 : Tf.Unit s.E1.q) (t : ℝ) :
    quat2rotmat (ends s t).q = quat2rotmat (qslerp (max 0 (min t 1)) s.E0.q s.E1.q) ∧
    (ends s t).v = linterp3 s.E0.v s.E1.v (max 0 (min t 1)) := by
  obtain ⟨e0, -, -, e1⟩ := C29_endpoints_partial s.E0.q s.E1.q h0 h1
  unfold ends
  rw [hd]
  split_ifs with g1 g2
  · rw [max_eq_left (by exact (min_le_left _ _).trans g1), e0]
    exact ⟨rfl, by simp [linterp3]⟩
  · rw [min_eq_right g2, max_eq_right zero_le_one, e1]
    exact ⟨rfl, by simp [linterp3]⟩
  · rw [min_eq_left (by linarith), max_eq_right (by linarith)]
    exact ⟨rfl, rfl⟩

theorem slerp_continuous (q1 q2 : Quat) (h1 : Tf.Unit q1) (h2 : Tf.Unit q2) :
    Continuous fun t => (qslerp t q1 q2).den := by
  obtain ⟨l, W, -, -, -, h⟩ := slerp_velocity q1 q2 h1 h2
  exact continuous_iff_continuousAt.2 fun t => (h t).continuousAt

/-- the pose reached at time `t` when the memory before was `m`. -/
noncomputable def reached (s : SlerpSeg) (base nq : Nat) (m : Mem ℝ) (t : ℝ) : Qutr :=
  poseAt (slerpEval s (stateAlloc base nq) t m).2 (base + 4 * up nq)

/-- C122: two poses that differ by more than 0.001 in some number, and a state of at least five
configurations: the generator returns a trajectory of duration 1 that starts at the first pose, ends
at the second, stays a pose, moves and turns continuously; in between the reported velocities are the
true ones, the angular one to within `2^-80`, they are constant, and at most half a turn is made.
Nothing but the arrays of the state is written.
The full statement is for all poses and all states, and the evaluation reports that the time is
within the trajectory; see `C122_violates_near`, `C122_violates_small_state` and
`C122_violates_status`. -/
theorem C122_path_partial (d : CtState) (A B : Nat → ℝ) (hA : Tf.Unit (qutrOf A).q)
    (hB : Tf.Unit (qutrOf B).q) (hdiff : Differ A B) :
    ∃ s, slerpGenerate (addQutr (addQutr (PList.empty d) A) B) = some (some (s, 1)) ∧
      ∃ v w W : V3, vnorm W ≤ Real.pi ∧ ‖w.pure - W.pure‖ ≤ 1 / 2 ^ 80 ∧
      ∀ (base nq : Nat) (m : Mem ℝ), 5 ≤ nq →
        (∀ t ≤ 0, reached s base nq m t = qutrOf A) ∧
        (∀ t ≥ 1, reached s base nq m t = qutrOf B) ∧
        (∀ t, Tf.Unit (reached s base nq m t).q) ∧
        (∀ i j, Continuous fun t => (quat2rotmat (reached s base nq m t).q).den i j) ∧
        (Continuous fun t => (reached s base nq m t).v.pure) ∧
        (∀ t, 0 < t → t < 1 →
          vecAt (slerpEval s (stateAlloc base nq) t m).2 (base + 4 * up nq + 8) = v ∧
          vecAt (slerpEval s (stateAlloc base nq) t m).2 (base + 4 * up nq + 8 + 3) = w ∧
          HasDerivAt (fun u => (reached s base nq m u).v.pure) v.pure t ∧
          HasDerivAt (fun u => (reached s base nq m u).q.den)
            ((1 / 2 : ℝ) • (W.pure * (reached s base nq m t).q.den)) t) ∧
        (∀ t j, j < base + 3 * up nq ∨ base + 4 * up nq + 20 ≤ j →
          (slerpEval s (stateAlloc base nq) t m).2 j = m j) := by
  obtain ⟨l, W, hl, hW, hc, hD⟩ := slerp_velocity _ _ hA hB
  obtain ⟨i, hi, hAB⟩ := hdiff
  obtain ⟨s, hs⟩ : ∃ s, slerpSeg (qutrOf A) (qutrOf B) = some s := by
    unfold slerpSeg; rw [hl]; exact ⟨_, rfl⟩
  have hs' := hs
  unfold slerpSeg at hs'
  rw [hl] at hs'
  simp only [Option.map_some, Option.some.injEq] at hs'
  have hE0 : s.E0 = qutrOf A := by rw [← hs']
  have hE1 : s.E1 = qutrOf B := by rw [← hs']
  have hdt : s.dt = 1 := by rw [← hs']
  have hdw : s.dw = ⟨2 * l.x, 2 * l.y, 2 * l.z⟩ := by rw [← hs']; simp
  have hdv : s.dv = ⟨(qutrOf B).v.x - (qutrOf A).v.x, (qutrOf B).v.y - (qutrOf A).v.y,
      (qutrOf B).v.z - (qutrOf A).v.z⟩ := by rw [← hs']; simp
  refine ⟨s, ?_, s.dv, s.dw, vscal 2 W, ?_, ?_, ?_⟩
  · rw [generate_eq, if_neg (fun h => absurd (h i hi) (not_le.2 hAB)), hs]; rfl
  · rw [vnorm_vscal, abs_of_pos two_pos]; linarith
  · have e : s.dw.pure - (vscal 2 W).pure = (2 : ℝ) • (l.vec.pure - W.pure) := by
      rw [hdw]; ext <;> simp [vscal, Quat.vec] <;> ring
    rw [e, norm_smul, Real.norm_eq_abs, abs_of_pos two_pos]
    have := mul_le_mul_of_nonneg_left hc zero_le_two
    refine this.trans (by norm_num)
  · intro base nq m hn
    have hr : ∀ t, reached s base nq m t = ends s t := fun t => (eval_spec s base nq hn t m).1
    have hf : reached s base nq m = ends s := funext hr
    rw [hf]
    have u0 : Tf.Unit s.E0.q := by rw [hE0]; exact hA
    have u1 : Tf.Unit s.E1.q := by rw [hE1]; exact hB
    have hcl := ends_clamp s hdt u0 u1
    have hcm : Continuous fun t : ℝ => max 0 (min t 1) := by fun_prop
    refine ⟨fun t ht => ?_, fun t ht => ?_, fun t => ?_, fun i j => ?_, ?_, fun t h0 h1 => ?_, fun t j hj => ?_⟩
    · unfold ends; rw [if_pos ht, hE0]
    · unfold ends
      rw [if_neg (by linarith), hdt, if_pos ht, hE1]
    · unfold ends
      split_ifs
      · exact u0
      · exact u1
      · exact C29_unit _ _ _ u0 u1
    · have e : (fun t => (quat2rotmat (ends s t).q).den i j) =
          fun t => (quat2rotmat (qslerp (max 0 (min t 1)) s.E0.q s.E1.q)).den i j :=
        funext fun t => by rw [(hcl t).1]
      rw [e]
      have hc := (slerp_continuous s.E0.q s.E1.q u0 u1).comp hcm
      have cx := Quaternion.continuous_imI.comp hc
      have cy := Quaternion.continuous_imJ.comp hc
      have cz := Quaternion.continuous_imK.comp hc
      have cw := Quaternion.continuous_re.comp hc
      simp only [Function.comp_def, Quat.den_re, Quat.den_imI, Quat.den_imJ, Quat.den_imK] at cx cy cz cw
      fin_cases i <;> fin_cases j <;>
        simp [M3.den, quat2rotmat, skewsymScalC, Quat.vec] <;> fun_prop
    · have e : (fun t => (ends s t).v.pure) =
          fun t => s.E0.v.pure + (max 0 (min t 1)) • (s.E1.v.pure - s.E0.v.pure) :=
        funext fun t => by rw [(hcl t).2]; ext <;> simp [linterp3]
      rw [e]
      fun_prop
    · obtain ⟨-, h, -⟩ := eval_spec s base nq hn t m
      obtain ⟨a, b⟩ := h h0 (by rw [hdt]; exact h1)
      have hev := path_interior s hdt h0 h1
      refine ⟨a, b, ?_, ?_⟩
      · have hv : (fun u => (ends s u).v.pure) =ᶠ[nhds t]
            fun u => s.E0.v.pure + u • (s.E1.v.pure - s.E0.v.pure) := by
          filter_upwards [hev] with u hu
          rw [hu]; ext <;> simp [linterp3]
        refine HasDerivAt.congr_of_eventuallyEq ?_ hv
        refine (((hasDerivAt_id t).smul_const (s.E1.v.pure - s.E0.v.pure)).const_add s.E0.v.pure).congr_deriv ?_
        rw [hdv, hE0, hE1]
        ext <;> simp
      · have hq : (fun u => (ends s u).q.den) =ᶠ[nhds t] fun u => (qslerp u s.E0.q s.E1.q).den := by
          filter_upwards [hev] with u hu
          rw [hu]
        have et : (ends s t).q = qslerp t s.E0.q s.E1.q := by
          unfold ends; rw [hdt, if_neg (not_le.2 h0), if_neg (not_le.2 h1)]
        refine HasDerivAt.congr_of_eventuallyEq ?_ hq
        rw [et, hE0, hE1]
        refine (hD t).congr_deriv ?_
        rw [vscal_pure, smul_mul_assoc, smul_smul]
        norm_num
    · exact (eval_spec s base nq hn t m).2.2 j hj

/-- C122: other numbers of points give no trajectory. -/
theorem C122_count (l : PList CtState) (h : l.list.length ≠ 2) : slerpGenerate l = some none := by
  unfold slerpGenerate
  split
  · rename_i a b e; rw [e] at h; exact absurd rfl h
  · rfl

/-- C122: poses that differ by at most 0.001 in every number have no trajectory: the second is not
added to the list. -/
theorem C122_violates_near (d : CtState) : ∃ A B : Nat → ℝ, Tf.Unit (qutrOf A).q ∧ Tf.Unit (qutrOf B).q ∧
    qutrOf A ≠ qutrOf B ∧ slerpGenerate (addQutr (addQutr (PList.empty d) A) B) = some none := by
  refine ⟨fun i => if i = 3 then 1 else 0, fun i => if i = 3 then 1 else if i = 4 then 1 / 1000 else 0,
    by simp [qutrOf, Tf.Unit], by simp [qutrOf, Tf.Unit], ?_, ?_⟩
  · intro h
    have := congrArg (fun E => E.v.x) h
    simp [qutrOf] at this
  · rw [generate_eq, if_pos]
    intro i hi
    by_cases h3 : i = 3
    · simp [h3]
    · by_cases h4 : i = 4
      · rw [h4]; norm_num
      · simp [h3, h4]

/-- C122: at no time does the evaluation report that the time is within the trajectory. -/
theorem C122_violates_status (s : SlerpSeg) (st : Ptrs) (t : ℝ) (m : Mem ℝ) : (slerpEval s st t m).1 = 0 := by
  unfold slerpEval slerpSegEval
  simp

/-- C122: for a state of at most four configurations the efforts, of which six are cleared, lie
over the orientation: whatever the poses and the time, `x` and `y` of the quaternion are zero, and
with at most two configurations the quaternion is zero, which is no orientation. -/
theorem C122_violates_small_state (s : SlerpSeg) (base nq : Nat) (hn : nq ≤ 4) (t : ℝ) (m : Mem ℝ) :
    (reached s base nq m t).q.x = 0 ∧ (reached s base nq m t).q.y = 0 ∧
    (nq ≤ 2 → (reached s base nq m t).q = ⟨0, 0, 0, 0⟩ ∧ ¬ Tf.Unit (reached s base nq m t).q) := by
  have hz : ∀ k m' , k < 6 → wr (some (base + 3 * up nq)) zero6 m' (base + 3 * up nq + k) = 0 := by
    intro k m' hk
    rw [wr_of_mem _ _ _ _ hk]
    unfold zero6
    rcases k with - | - | - | - | - | - | k
    all_goals first | rfl | omega
  have e : ∃ m', (slerpEval s (stateAlloc base nq) t m).2 = wr (some (base + 3 * up nq)) zero6 m' := by
    unfold slerpEval slerpSegEval stateAlloc
    exact ⟨_, by simp only [ne_eq, not_true_eq_false, if_false]; rfl⟩
  obtain ⟨m', e⟩ := e
  have hk : ∀ k, up nq + k < 6 → (slerpEval s (stateAlloc base nq) t m).2 (base + 4 * up nq + k) = 0 := by
    intro k hk
    rw [e, show base + 4 * up nq + k = base + 3 * up nq + (up nq + k) by omega]
    exact hz _ _ hk
  have h4 : up nq ≤ 4 := by unfold up; omega
  refine ⟨hk 0 (by omega), hk 1 (by omega), fun h2 => ?_⟩
  have h2' : up nq ≤ 2 := by unfold up; omega
  have : (reached s base nq m t).q = ⟨0, 0, 0, 0⟩ := by
    unfold reached poseAt
    have k0 := hk 0 (by omega)
    rw [Nat.add_zero] at k0
    simp only [k0, hk 1 (by omega), hk 2 (by omega), hk 3 (by omega)]
  exact ⟨this, by rw [this]; simp [Tf.Unit]⟩

/-- the layout of the arrays is that of the allocations of a region: a block of `n` doubles from a
chunk with room is at the head, and the head moves on by the rounded size. -/
theorem layout_region (r : Region.Reg) (c : Region.Chunk) (cs : List Region.Chunk) (n a : Nat)
    (hr : r.node = c :: cs) (hroom : r.head + 8 * n ≤ c.fin) (hal : r.head % 16 = 0) :
    Region.alloc r (8 * n) a = .ok ({ r with head := r.head + 8 * up n }, r.head) := by
  unfold Region.alloc
  rw [hr]
  simp only
  rw [if_neg (by omega)]
  have : Region.align (r.head + 8 * n) = r.head + 8 * up n := by
    unfold Region.align Region.ALIGN up
    omega
  rw [this]

/-- A quarter turn about z and a step along x. -/
example : Tf.Unit (qutrOf fun i => if i = 3 then 1 else 0).q ∧
    Tf.Unit (qutrOf fun i => if i = 2 then 3 / 5 else if i = 3 then 4 / 5 else if i = 4 then 2 else 0).q ∧
    Differ (fun i => if i = 3 then 1 else 0)
      (fun i => if i = 2 then 3 / 5 else if i = 3 then 4 / 5 else if i = 4 then 2 else 0) := by
  refine ⟨by simp [qutrOf, Tf.Unit], by simp [qutrOf, Tf.Unit]; norm_num, 4, by norm_num, by norm_num⟩

end Verif.TjX
