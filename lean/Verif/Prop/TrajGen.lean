import Verif.Proof.TrajPb
import Verif.Prop.TrajList

/-!
# C45, C46, C47: the joint-space trajectory generators

`Follows segs T Q D` is the specification of a trajectory: evaluating the list at any time of
`[0,T]` answers "inside" with position `Q t` and velocity `D t`, and at any other time "outside".
-/

namespace Verif.Ct

open Set

variable {n : Nat}

/-! ## Specification -/

/-- Evaluation of a newly generated list follows the curve `Q` with velocity `D` on `[0,T]`. -/
def Follows (segs : List (Seg n)) (T : ℝ) (Q D : ℝ → Fin n → ℝ) : Prop :=
  ∀ st t,
    (t ∈ Icc 0 T → ∃ st' it, listEval segs none st t = some (true, st', it) ∧ st'.q = Q t ∧
      st'.dq = D t) ∧
    (t ∉ Icc 0 T → ∃ st' it, listEval segs none st t = some (false, st', it))

/-- `Q` passes through the points in order, at increasing times from `0` to `T`. -/
def PassesThrough (Q : ℝ → Fin n → ℝ) (T : ℝ) (ps : List (Fin n → ℝ)) : Prop :=
  ∃ τ : List ℝ, List.Forall₂ (fun t p => Q t = p) τ ps ∧ τ.Pairwise (· < ·) ∧
    τ.head? = some 0 ∧ τ.getLast? = some T

/-- Velocity within the limits of every joint. -/
def VelWithin (L : Limits n) (T : ℝ) (D : ℝ → Fin n → ℝ) : Prop :=
  ∀ t ∈ Icc 0 T, ∀ i, L.vmin i ≤ D t i ∧ D t i ≤ L.vmax i

theorem follows_of {segs : List (Seg n)} {pss : List (List (Piece n))}
    (h : List.Forall₂ Covers segs pss) {p : Piece n} {ps : List (Piece n)}
    (e : pss.flatten = p :: ps) (hc : TChain p ps) (h0 : p.a = 0) :
    Follows segs (stop p ps) (pev Piece.g (p :: ps)) (pev Piece.g' (p :: ps)) := by
  intro st t
  have hne : segs ≠ [] := by
    rintro rfl
    cases h
    simp at e
  have ev : listEval segs none st t = some (evalFrom segs 0 st t) := if_neg hne
  obtain ⟨h1, h2⟩ := evalFrom_covers h 0 st t
  rw [e, sel_isSome_iff hc, h0] at h1
  rw [e] at h2
  constructor
  · intro ht
    obtain ⟨r, hr⟩ := (sel_isSome_iff hc t).2 (by rw [h0]; exact ht)
    refine ⟨_, _, ev.trans (congrArg some (Prod.ext (h1.2 ht) rfl)), ?_, ?_⟩
    · rw [(h2 r hr).1]; unfold pev; rw [hr]
    · rw [(h2 r hr).2]; unfold pev; rw [hr]
  · intro ht
    have : (evalFrom segs 0 st t).1 = false := by
      by_contra hc
      exact ht (h1.1 (by simpa using hc))
    exact ⟨_, _, ev.trans (congrArg some (Prod.ext this rfl))⟩

/-! ## C45 -/

theorem lin_covers (segs : List (SegDq n)) :
    List.Forall₂ Covers (segs.map SegDq.eval) (segs.map fun s => [s.piece]) := by
  induction segs with
  | nil => exact .nil
  | cons s segs ih => exact .cons s.covers ih

theorem lin_flatten (segs : List (SegDq n)) :
    (segs.map fun s => [s.piece]).flatten = segs.map SegDq.piece := by
  induction segs with
  | nil => rfl
  | cons s segs ih => simp only [List.map_cons, List.flatten_cons, ih]; rfl

/-- Whenever the linear generator returns finite segments for at least two points, the trajectory
is a continuous curve through the points in order, its velocity is the (left) derivative of the
position and within the limits. -/
theorem C45_linear_partial (L : Limits n) (hL : ∀ i, L.vmin i < 0 ∧ 0 < L.vmax i)
    (p p' : Fin n → ℝ) (ps : List (Fin n → ℝ)) (segs : List (SegDq n)) (T : ℝ)
    (h : linGenerate L (p :: p' :: ps) = some (segs, T)) :
    ∃ Q D, Follows (segs.map SegDq.eval) T Q D ∧ ContinuousOn Q (Icc 0 T) ∧
      (∀ t ∈ Icc 0 T, HasDerivWithinAt Q (D t) (Icc 0 t) t) ∧
      VelWithin L T D ∧ PassesThrough Q T (p :: p' :: ps) := by
  obtain ⟨s, rest, e, e0, -, hc, hj, hs, hv, hw⟩ := linLoop_spec hL ps h
  subst e
  have a0 : s.piece.a = 0 := e0
  have hd : ∀ r ∈ s.piece :: rest.map SegDq.piece, ∀ t, HasDerivAt r.g (r.g' t) t := by
    intro r hr
    rw [← List.map_cons, List.mem_map] at hr
    obtain ⟨c, -, rfl⟩ := hr
    exact c.deriv
  refine ⟨pev Piece.g (s.piece :: rest.map SegDq.piece),
    pev Piece.g' (s.piece :: rest.map SegDq.piece), ?_, ?_, ?_, ?_, hw⟩
  · have := follows_of (lin_covers (s :: rest)) (lin_flatten _) hc a0
    rwa [hs] at this
  · have := pev_continuous Piece.g hc hj fun r hr => continuous_iff_continuousAt.2 fun t =>
      (hd r hr t).continuousAt
    rwa [hs, a0] at this
  · intro t ht
    have := pev_left_deriv hc hj hd (t := t) (by rw [hs, a0]; exact ht)
    rwa [a0] at this
  · intro t ht i
    obtain ⟨r, hr⟩ := (sel_isSome_iff hc t).2 (by rw [hs, a0]; exact ht)
    unfold pev
    rw [hr]
    obtain ⟨c, hc, rfl⟩ := List.mem_map.1 (by simpa using (sel_mem hr).1 : r ∈ (s :: rest).map _)
    exact hv c hc i

/-- The generator succeeds when neighbouring points differ. -/
theorem C45_generates (L : Limits n) (hL : ∀ i, L.vmin i < 0 ∧ 0 < L.vmax i)
    (p : Fin n → ℝ) (ps : List (Fin n → ℝ)) (hd : (p :: ps).IsChain (· ≠ ·)) :
    ∃ segs T, linGenerate L (p :: ps) = some (segs, T) ∧ segs.length = ps.length := by
  suffices h : ∀ t, ∃ segs T, linLoop L p ps t = some (segs, T) ∧ segs.length = ps.length from h 0
  induction ps generalizing p with
  | nil => exact fun t => ⟨[], t, rfl, rfl⟩
  | cons p' ps ih =>
    intro t
    obtain ⟨hne, hd'⟩ := List.isChain_cons_cons.1 hd
    have : ∃ s, segDqNew L t p p' = some s := by
      obtain ⟨i, hi⟩ := Function.ne_iff.1 hne
      have hp : 0 < linTime L (fun i => p' i - p i) i := by
        unfold linTime
        split
        · rename_i h; exact div_pos_of_neg_of_neg h (hL i).1
        · rename_i h
          push Not at h
          refine div_pos (lt_of_le_of_ne h fun e => hi ?_) (hL i).2
          linarith
      have := lt_of_lt_of_le hp (maxOver_ge 0 (linTime L fun i => p' i - p i) i)
      refine ⟨_, if_neg ?_⟩
      rintro (⟨j, hj | hj⟩ | h0)
      · exact (hL j).1.ne hj
      · exact (hL j).2.ne' hj
      · exact this.ne' h0
    obtain ⟨s, hs⟩ := this
    obtain ⟨segs, T, e, hl⟩ := ih p' hd' s.t1
    refine ⟨s :: segs, T, ?_, by simp [hl]⟩
    rw [linLoop, hs]
    simp only [Option.bind_eq_bind, Option.bind_some, e]

/-- Defect: two neighbouring points with the same configuration make the segment time zero, and
the velocity is 0/0. -/
theorem C45_violates_repeated_point (L : Limits n) (p : Fin n → ℝ) (ps : List (Fin n → ℝ)) :
    linGenerate L (p :: p :: ps) = none := by
  have : segDqNew L 0 p p = none := by
    refine if_pos (Or.inr ?_)
    apply le_antisymm _ (le_maxOver _ _)
    apply maxOver_le _ _ _ le_rfl
    intro i
    simp [linTime]
  rw [linGenerate, linLoop, this]
  rfl

/-- Such a list is accepted by `aa_ct_pt_list_add`, which compares velocities as well: two states
with the same position and different velocities are both kept. -/
theorem C45_violates_repeated_point_listed (d : CtState) :
    let s (v : ℝ) : CtState :=
      ⟨1, 0, some fun _ => 0, some fun _ => v, none, none, none, none, none, none, none⟩
    (([s 0, s 1]).foldl ptAdd (PList.empty d)).contents = [stateClone (s 0), stateClone (s 1)] := by
  intro s
  rw [C44_back_partial, List.destutter_cons', List.destutter'_cons_pos]
  · rfl
  · intro h
    obtain ⟨_, _, _, h, _⟩ := h
    rcases h with ⟨h, _⟩ | ⟨f, g, hf, hg, h⟩
    · simp [s] at h
    · have := h 0 (by simp [s])
      simp only [s, Option.some.injEq] at hf hg
      rw [← hf, ← hg] at this
      norm_num at this

/-- Two joints, three points. -/
example : ∃ segs T, linGenerate (n := 2) ⟨fun _ => -1, fun _ => 2, fun _ => -1, fun _ => 1⟩
    [![0, 0], ![1, 0], ![1, -3]] = some (segs, T) := by
  obtain ⟨segs, T, h, _⟩ := C45_generates (n := 2)
    ⟨fun _ => -1, fun _ => 2, fun _ => -1, fun _ => 1⟩ (fun _ => by norm_num) ![0, 0]
    [![1, 0], ![1, -3]] (by
      refine .cons_cons (fun e => ?_) (.cons_cons (fun e => ?_) (.singleton _))
      · have := congrFun e 0; simp at this
      · have := congrFun e 1; simp at this)
  exact ⟨segs, T, h⟩

/-! ## C46 -/

/-- The generator succeeds when neighbouring points differ. -/
theorem trapNew_some (L : Limits n) (hL : L.Ok) (t : ℝ) {p p' : Fin n → ℝ} (hne : p ≠ p') :
    ∃ s, trapNew L t p p' = some s := by
  obtain ⟨i, hi⟩ := Function.ne_iff.1 hne
  obtain ⟨j1, j2, j3, -, -⟩ := trap_joint hL p p' i
  obtain ⟨t1, t2⟩ := trap_times hL p p'
  have hta : 0 < maxOver 0 (trapTa L p p') := by
    refine lt_of_lt_of_le (lt_of_le_of_ne j1 fun e => ?_) (maxOver_ge 0 (trapTa L p p') i)
    rw [← e] at j3
    apply hi
    linarith
  refine ⟨_, if_neg ?_⟩
  rintro (⟨j, hj⟩ | h0)
  · obtain ⟨a, b, c, d⟩ := hL j
    rcases hj with hj | hj | hj | hj
    · exact a.ne hj
    · exact b.ne' hj
    · exact c.ne hj
    · exact d.ne' hj
  · have : 0 < maxOver 0 (trapTa L p p') * (maxOver 0 (trapDt L p p') - maxOver 0 (trapTa L p p')) :=
      mul_pos hta (by linarith)
    linarith

theorem C46_generates (L : Limits n) (hL : L.Ok)
    (p : Fin n → ℝ) (ps : List (Fin n → ℝ)) (hd : (p :: ps).IsChain (· ≠ ·)) :
    ∃ segs T, trapGenerate L (p :: ps) = some (segs, T) ∧ segs.length = ps.length := by
  suffices h : ∀ t, ∃ segs T, trapLoop L p ps t = some (segs, T) ∧ segs.length = ps.length from h 0
  induction ps generalizing p with
  | nil => exact fun t => ⟨[], t, rfl, rfl⟩
  | cons p' ps ih =>
    intro t
    obtain ⟨hne, hd'⟩ := List.isChain_cons_cons.1 hd
    obtain ⟨s, hs⟩ := trapNew_some L hL t hne
    obtain ⟨segs, T, e, hl⟩ := ih p' hd' s.dec.t1
    refine ⟨s :: segs, T, ?_, by simp [hl]⟩
    rw [trapLoop, hs]
    simp only [Option.bind_eq_bind, Option.bind_some, e]

/-- If the acceleration were added rather than subtracted in `aa_ct_seg_ddq_eval` (`sgn = 1`), the
trajectory would be a continuously differentiable curve through the points, at rest at each. -/
theorem C46_repaired_partial (L : Limits n) (hL : L.Ok) (p p' : Fin n → ℝ)
    (ps : List (Fin n → ℝ)) (segs : List (Trap n)) (T : ℝ)
    (h : trapGenerate L (p :: p' :: ps) = some (segs, T)) :
    ∃ Q D, Follows (trapSegs 1 segs) T Q D ∧ ContinuousOn D (Icc 0 T) ∧
      (∀ t ∈ Icc 0 T, HasDerivWithinAt Q (D t) (Icc 0 T) t) ∧
      ∃ τ : List ℝ, List.Forall₂ (fun t p => Q t = p ∧ D t = 0) τ (p :: p' :: ps) ∧
        τ.Pairwise (· < ·) ∧ τ.head? = some 0 ∧ τ.getLast? = some T := by
  obtain ⟨s, rest, e, e0, -, -, hc, hj, hj', hs, hw⟩ := trapLoop_spec hL ps h
  subst e
  have a0 : (s.acc.piece 1).a = 0 := e0
  have hall : ∀ r ∈ (s :: rest).flatMap (Trap.pieces 1),
      (∀ t, HasDerivAt r.g (r.g' t) t) ∧ Continuous r.g' := by
    intro r hr
    obtain ⟨c, -, hr⟩ := List.mem_flatMap.1 hr
    simp only [Trap.pieces, List.mem_cons, List.not_mem_nil, or_false] at hr
    rcases hr with rfl | rfl | rfl
    · exact ⟨c.acc.deriv 1, c.acc.cont' 1⟩
    · exact ⟨c.con.deriv, continuous_const⟩
    · exact ⟨c.dec.deriv 1, c.dec.cont' 1⟩
  have el : (s :: rest).flatMap (Trap.pieces 1) =
      s.acc.piece 1 :: s.con.piece :: s.dec.piece 1 :: rest.flatMap (Trap.pieces 1) := rfl
  rw [el] at hall hw
  refine ⟨pev Piece.g (s.acc.piece 1 :: s.con.piece :: s.dec.piece 1 ::
    rest.flatMap (Trap.pieces 1)), pev Piece.g' (s.acc.piece 1 :: s.con.piece :: s.dec.piece 1 ::
    rest.flatMap (Trap.pieces 1)), ?_, ?_, ?_, hw⟩
  · have := follows_of (trapSegs_covers 1 (s :: rest)) ((trap_flatten 1 _).trans el) hc a0
    rwa [hs] at this
  · have := pev_continuous Piece.g' hc hj' fun r hr => (hall r hr).2
    rwa [hs, a0] at this
  · intro t ht
    have := pev_deriv hc hj hj' (fun r hr => (hall r hr).1) (t := t) (by rw [hs, a0]; exact ht)
    rwa [hs, a0] at this

/-- The acceleration of every trapezoid is within the limits of every joint: it is the limited one
in the first part, its negative in the last. -/
theorem C46_acceleration_partial (L : Limits n) (hL : L.Ok) (t0 : ℝ) (q0 q1 : Fin n → ℝ)
    (s : Trap n) (h : trapNew L t0 q0 q1 = some s) (i : Fin n) :
    L.amin i ≤ s.acc.ddq i ∧ s.acc.ddq i ≤ L.amax i ∧ s.dec.ddq i = -s.acc.ddq i := by
  obtain ⟨-, -, -, -, -, -, -, -, -, -, -, -, -, -, -, -, -, -, -, hd, -⟩ := trapNew_spec hL h
  obtain ⟨h1, h2⟩ := trap_acc hL h i
  obtain ⟨_, _, ha, hA⟩ := hL i
  rcases le_total (q0 i) (q1 i) with hq | hq
  · exact ⟨ha.le.trans (h1 hq).1, (h1 hq).2, hd i⟩
  · exact ⟨(h2 hq).1, (h2 hq).2.trans hA.le, hd i⟩

/-- With one joint the coasting velocity is within the limits. -/
theorem C46_velocity_one_joint_partial (L : Limits 1) (hL : L.Ok) (t0 : ℝ) (q0 q1 : Fin 1 → ℝ)
    (s : Trap 1) (h : trapNew L t0 q0 q1 = some s) :
    L.vmin 0 ≤ s.con.dq 0 ∧ s.con.dq 0 ≤ L.vmax 0 := by
  have e : ∀ f : Fin 1 → ℝ, 0 ≤ f 0 → maxOver 0 f = f 0 := by
    intro f hf
    simp [maxOver, hf]
  obtain ⟨j1, j2, -, -, -⟩ := trap_joint hL q0 q1 0
  have := trap_vel hL h 0 1 (by rw [e _ j1, e _ (by linarith)]; linarith)
  simpa using this

/-- With several joints it is within twice the limits. -/
theorem C46_velocity_twice_partial (L : Limits n) (hL : L.Ok) (t0 : ℝ) (q0 q1 : Fin n → ℝ)
    (s : Trap n) (h : trapNew L t0 q0 q1 = some s) (i : Fin n) :
    2 * L.vmin i ≤ s.con.dq i ∧ s.con.dq i ≤ 2 * L.vmax i := by
  obtain ⟨j1, j2, -, -, -⟩ := trap_joint hL q0 q1 i
  obtain ⟨t1, t2⟩ := trap_times hL q0 q1
  have := maxOver_ge 0 (trapDt L q0 q1) i
  exact trap_vel hL h i 2 (by linarith)

/-- Defect: as written, the position at the end of the acceleration part and the position at the
start of the coasting part, which is the same time, differ, and the trajectory does not end at
rest: for every pair of different points. -/
theorem C46_violates_continuity (L : Limits n) (hL : L.Ok) (t0 : ℝ) (q0 q1 : Fin n → ℝ)
    (hne : q0 ≠ q1) (s : Trap n) (h : trapNew L t0 q0 q1 = some s) (st : St n) :
    s.acc.t1 = s.con.t0 ∧ (s.acc.eval st s.acc.t1).1 = true ∧ (s.con.eval st s.con.t0).1 = true ∧
      (s.acc.eval st s.acc.t1).2.q ≠ (s.con.eval st s.con.t0).2.q ∧
      (s.dec.eval st s.dec.t1).1 = true ∧ (s.dec.eval st s.dec.t1).2.dq ≠ 0 := by
  obtain ⟨c1, c2, c3, c4, c5, c6, -⟩ := trap_curve hL h
  obtain ⟨ta, dt, -, -, hp, h2, -, e1, e2, e3, e4, e5, e6, e7, e8, e9, e10, e11, e12, e13, e14⟩ :=
    trapNew_spec hL h
  obtain ⟨i, hi⟩ := Function.ne_iff.1 hne
  have hdd : s.acc.ddq i ≠ 0 := by
    intro h0
    have := e14 i
    rw [h0] at this
    apply hi; linarith
  have hacc : s.acc.t0 ≤ s.acc.t1 ∧ s.acc.t1 ≤ s.acc.t1 := ⟨c2.le, le_rfl⟩
  have hcon : s.con.t0 ≤ s.con.t0 ∧ s.con.t0 ≤ s.con.t1 := ⟨le_rfl, c4⟩
  have hdec : s.dec.t0 ≤ s.dec.t1 ∧ s.dec.t1 ≤ s.dec.t1 := ⟨c6.le, le_rfl⟩
  refine ⟨c3.symm, ?_, ?_, ?_, ?_, ?_⟩
  · simp only [SegDdq.eval, SegDdq.evalSgn, if_pos hacc]
  · simp only [SegDq.eval, if_pos hcon]
  · simp only [SegDdq.eval, SegDdq.evalSgn, if_pos hacc, SegDq.eval, if_pos hcon]
    intro e
    have := congrFun e i
    simp only [e1, e2, e3, e4, e10] at this
    have h3 : s.acc.ddq i * (ta * ta) = 0 := by linear_combination -this
    rcases mul_eq_zero.1 h3 with h3 | h3
    · exact hdd h3
    · exact hp.ne' (mul_self_eq_zero.1 h3)
  · simp only [SegDdq.eval, SegDdq.evalSgn, if_pos hdec]
  · simp only [SegDdq.eval, SegDdq.evalSgn, if_pos hdec]
    intro e
    have := congrFun e i
    simp only [e7, e8, e9, e12, e13, Pi.zero_apply] at this
    have h3 : s.acc.ddq i * ta = 0 := by linear_combination this / 2
    rcases mul_eq_zero.1 h3 with h3 | h3
    · exact hdd h3
    · exact hp.ne' h3

/-- Limits of the two-joint example below: the second joint is slow but accelerates quickly. -/
noncomputable def slowJoint : Limits 2 :=
  ⟨![-1, -1], ![1, 1], ![-1, -10], ![1, 10]⟩

/-- Defect: the acceleration time of one joint and the total time of another are combined.  Moving
the joints by 1 and 19/10, the second joint coasts at 1.9 although its limit is 1. -/
theorem C46_violates_velocity : ∃ s, trapNew slowJoint 0 ![0, 0] ![1, 19 / 10] = some s ∧
    s.con.dq 1 = 19 / 10 ∧ slowJoint.vmax 1 = 1 := by
  have hok : slowJoint.Ok := by
    intro i
    fin_cases i <;> simp [slowJoint]
  have hne : (![0, 0] : Fin 2 → ℝ) ≠ ![1, 19 / 10] := by
    intro e
    have := congrFun e 0
    simp at this
  obtain ⟨s, hs⟩ := trapNew_some slowJoint hok 0 hne
  have r1 : ¬ (1 : ℝ) < Real.sqrt (1 / 1) * 1 := by simp
  have r2 : (1 : ℝ) < Real.sqrt (19 / 10 / 10) * 10 := by
    have h : (1 / 10 : ℝ) < Real.sqrt (19 / 10 / 10) := by
      apply Real.lt_sqrt_of_sq_lt; norm_num
    linarith
  have ta0 : trapTa slowJoint ![0, 0] ![1, 19 / 10] 0 = 1 := by
    simp [trapTa, slowJoint]
  have dt0 : trapDt slowJoint ![0, 0] ![1, 19 / 10] 0 = 2 := by
    simp [trapDt, slowJoint]
  have hle : (0 : ℝ) ≤ 19 / 10 := by norm_num
  have ta1 : trapTa slowJoint ![0, 0] ![1, 19 / 10] 1 = 1 / 10 := by
    simp only [trapTa, slowJoint, Matrix.cons_val_one, Matrix.cons_val_fin_one, sub_zero, if_pos hle, mul_one]
    rw [if_pos r2]
  have dt1 : trapDt slowJoint ![0, 0] ![1, 19 / 10] 1 = 2 := by
    simp only [trapDt, slowJoint, Matrix.cons_val_one, Matrix.cons_val_fin_one, sub_zero, if_pos hle, mul_one]
    rw [if_pos r2]; norm_num
  obtain ⟨ta, dt, hta, hdt, -, -, hdd, -, -, -, -, -, -, -, -, hc, -⟩ := trapNew_spec hok hs
  have e1 : ta = 1 := by
    rw [hta]; simp [maxOver, List.ofFn_succ, ta0, ta1]; norm_num
  have e2 : dt = 2 := by
    rw [hdt]; simp [maxOver, List.ofFn_succ, dt0, dt1]
  refine ⟨s, hs, ?_, rfl⟩
  rw [hc, hdd, e1, e2]
  norm_num

/-- Two joints, three points. -/
example : ∃ segs T, trapGenerate slowJoint [![0, 0], ![1, 0], ![1, -3]] = some (segs, T) := by
  obtain ⟨segs, T, h, _⟩ := C46_generates slowJoint
    (by intro i; fin_cases i <;> simp [slowJoint]) ![0, 0]
    [![1, 0], ![1, -3]] (by
      refine .cons_cons (fun e => ?_) (.cons_cons (fun e => ?_) (.singleton _))
      · have := congrFun e 0; simp at this
      · have := congrFun e 1; simp at this)
  exact ⟨segs, T, h⟩

/-! ## C47 -/

/-- Whenever the blend generator finishes (within any number of rounds), the trajectory is a
continuously differentiable curve on exactly the recorded duration, from rest at the first point
to rest at the last, blends of neighbouring points do not overlap, and velocities and
accelerations are within the limits. -/
theorem C47_blend_partial (L : Limits n) (hL : L.Ok) (fuel : Nat) (p : Fin n → ℝ)
    (ps : List (Fin n → ℝ)) (cs : List (Pb n)) (T : ℝ)
    (h : pbGenerate L fuel (p :: ps) = some (cs, T)) :
    ∃ Q D, Follows (pbSegs none cs) T Q D ∧ ContinuousOn D (Icc 0 T) ∧
      (∀ t ∈ Icc 0 T, HasDerivWithinAt Q (D t) (Icc 0 T) t) ∧
      Q 0 = p ∧ D 0 = 0 ∧ some (Q T) = (p :: ps).getLast? ∧ D T = 0 ∧
      VelWithin L T D ∧
      (cs.IsChain fun c m => c.t + c.b / 2 ≤ m.t - m.b / 2) ∧
      ∀ c ∈ cs, ∀ i, L.amin i ≤ c.ddq i ∧ c.ddq i ≤ L.amax i := by
  simp only [pbGenerate, if_neg (List.cons_ne_nil p ps), Option.bind_eq_bind,
    Option.bind_eq_some_iff] at h
  obtain ⟨out, hout, c0, hc0, c1, hc1, he⟩ := h
  simp only [Option.some.injEq, Prod.mk.injEq] at he
  obtain ⟨rfl, hT⟩ := he
  obtain ⟨hi, ho, hn, hq⟩ := pbLoop_spec fuel (pbInit_in L _) hout
  rw [pbInit_q] at hq
  cases out with
  | nil => simp at hq
  | cons c out =>
    obtain ⟨hcq, hqs⟩ := List.cons.inj hq
    obtain ⟨hch, hj, hj', hst⟩ := pb_curve out hi ho hn
    obtain ⟨l, hl, hlg, hlg'⟩ := pb_last out ho
    obtain ⟨l', hl', hdur⟩ := pb_duration out (c0.b / 2) ho
    obtain ⟨c0', hc0', hb0⟩ := pbLast_head c out
    rw [hc0'] at hc0
    obtain rfl : c0' = c0 := Option.some.inj hc0
    rw [hl'] at hc1
    obtain rfl : l' = c1 := Option.some.inj hc1
    have hct : c.t = c.b / 2 := ho.2.2.1
    have hE : pbEnd c out = T := by
      rw [← hT, hdur, hb0, hct]; ring
    have a0 : (c.blend none).a = 0 := by
      show c.t - c.b / 2 = 0
      linarith
    have hb := ho.bpos c (by simp)
    rw [hE] at hst hlg hlg'
    have hall : ∀ r ∈ c.blend none :: pbRest c out,
        (∀ t, HasDerivAt r.g (r.g' t) t) ∧ Continuous r.g' := by
      intro r hr
      rcases List.mem_cons.1 hr with rfl | hr
      · exact ⟨c.blend_deriv none, c.blend_cont' none⟩
      · exact pbRest_mem (P := fun r => (∀ t, HasDerivAt r.g (r.g' t) t) ∧ Continuous r.g') out c
          (fun x m => ⟨x.line_deriv m, continuous_const⟩)
          (fun x y => ⟨y.blend_deriv (some x), y.blend_cont' (some x)⟩) r hr
    refine ⟨pev Piece.g (c.blend none :: pbRest c out), pev Piece.g' (c.blend none :: pbRest c out),
      ?_, ?_, ?_, ?_, ?_, ?_, ?_, ?_, pb_disjoint _ ho hn, ?_⟩
    · rw [pbLast_segs]
      have := follows_of (pbSegs_covers none (c :: out)) (pbPieces_flatten none c out) hch a0
      rwa [hst] at this
    · have := pev_continuous Piece.g' hch hj' fun r hr => (hall r hr).2
      rwa [hst, a0] at this
    · intro t ht
      have := pev_deriv hch hj hj' (fun r hr => (hall r hr).1) (t := t)
        (by rw [hst, a0]; exact ht)
      rwa [hst, a0] at this
    · rw [pev_first Piece.g (c.blend none) _ (t := 0) ⟨le_of_eq a0, by
        show (0 : ℝ) ≤ c.t + c.b / 2
        linarith⟩]
      funext i
      simp only [Pb.blend, pdqOf, hct]
      rw [← hcq]; ring
    · rw [pev_first Piece.g' (c.blend none) _ (t := 0) ⟨le_of_eq a0, by
        show (0 : ℝ) ≤ c.t + c.b / 2
        linarith⟩]
      funext i
      simp only [Pb.blend, pdqOf, hct, Pi.zero_apply]
      ring
    · have := pev_stop Piece.g hch hj
      rw [hst, hlg] at this
      rw [this, ← hq, List.getLast?_map, hl]; rfl
    · have := pev_stop Piece.g' hch hj'
      rw [hst, hlg'] at this
      exact this
    · intro t ht i
      obtain ⟨r, hr⟩ := (sel_isSome_iff hch t).2 (by rw [hst, a0]; exact ht)
      unfold pev
      rw [hr]
      obtain ⟨m1, m2⟩ := sel_mem hr
      exact pb_vel hL out hi ho (fun i => ⟨(hL i).1.le, (hL i).2.1.le⟩) r m1 t m2 i
    · exact pbLast_acc fun x hx i => ⟨(pb_within hL _ hi ho x hx i).2.2.1,
        (pb_within hL _ hi ho x hx i).2.2.2⟩

theorem pbLimit_le_iff (a b lo hi : Fin n → ℝ) (x : ℝ) : pbLimit a b lo hi ≤ x ↔
    dblMin ≤ x ∧ ∀ i, (if a i - b i < 0 then (a i - b i) / lo i else (a i - b i) / hi i) ≤ x := by
  constructor
  · intro h
    exact ⟨(le_maxOver _ _).trans h, fun i => (maxOver_ge dblMin (fun i =>
      if a i - b i < 0 then (a i - b i) / lo i else (a i - b i) / hi i) i).trans h⟩
  · rintro ⟨h1, h2⟩
    exact maxOver_le _ _ _ h1 h2

/-- Stretching the time by which a difference is divided shortens the blend accordingly. -/
theorem pbLimit_stretch {d lo hi : Fin n → ℝ} {s x : ℝ} (hs : 0 < s) (hx : dblMin ≤ x)
    (h : pbLimit d 0 lo hi ≤ s * x) : pbLimit (fun i => d i / s) 0 lo hi ≤ x := by
  rw [pbLimit_le_iff] at h ⊢
  refine ⟨hx, fun i => ?_⟩
  have := h.2 i
  simp only [Pi.zero_apply, sub_zero] at this ⊢
  by_cases hd : d i < 0
  · rw [if_pos hd] at this
    rw [if_pos (div_neg_of_neg_of_pos hd hs), div_right_comm, div_le_iff₀ hs]
    linarith
  · rw [if_neg hd] at this
    have : ¬ d i / s < 0 := by
      rw [div_lt_iff₀ hs, zero_mul]; exact hd
    rw [if_neg this, div_right_comm, div_le_iff₀ hs]
    linarith

theorem pbLimit_sub (a b lo hi : Fin n → ℝ) :
    pbLimit a b lo hi = pbLimit (fun i => a i - b i) 0 lo hi := by
  simp [pbLimit]

/-- The two contexts of a two-point list whose duration is `s`, after an update pass. -/
noncomputable def pbTwo (L : Limits n) (p p' : Fin n → ℝ) (s : ℝ) : Pb n × Pb n :=
  let c0 := pbUpdate L none ⟨p, 0, 0, 0, s, 0⟩ (some ⟨p', 0, 0, 0, dblMax, 0⟩)
  (c0, pbUpdate L (some c0) ⟨p', 0, 0, 0, dblMax, 0⟩ none)

theorem pbPass_two (L : Limits n) (c c' : Pb n) (h : c'.dq = 0) (h' : c'.dt = dblMax) :
    pbPass L none [c, c'] = [(pbTwo L c.q c'.q c.dt).1, (pbTwo L c.q c'.q c.dt).2] := by
  obtain ⟨q, dq, ddq, t, dt, b⟩ := c
  obtain ⟨q', dq', ddq', t', dt', b'⟩ := c'
  simp only at h h'
  subst h h'
  rfl

/-- No overlap ends the loop. -/
theorem pbLoop_two_stop (L : Limits n) (c c' : Pb n) (h : c'.dq = 0) (h' : c'.dt = dblMax)
    (fuel : Nat) (h0 : (pbTwo L c.q c'.q c.dt).1.b ≤ c.dt)
    (h1 : (pbTwo L c.q c'.q c.dt).2.b ≤ c.dt) : ∃ cs, pbLoop L (fuel + 1) [c, c'] = some cs := by
  have hd : (pbTwo L c.q c'.q c.dt).1.dt = c.dt := rfl
  refine ⟨pbScale (pbPass L none [c, c']) (pbCheck none (pbPass L none [c, c'])).1, ?_⟩
  refine if_neg ?_
  rw [pbPass_two L c c' h h']
  simp only [pbCheck, pbOverlap, List.head?_cons, List.head?_nil, hd, Bool.or_false,
    Bool.false_or, Bool.or_eq_true, decide_eq_true_eq]
  rintro (⟨h, -⟩ | ⟨h, -⟩) <;> linarith

theorem div_sqrt_sq {s m b f : ℝ} (hs : 0 < s) (hb : 0 < b) (hm : 0 < m) (hms : m ≤ s)
    (hf : 0 < f) (hfm : f ≤ Real.sqrt (m / b)) : s * b ≤ (s / f) * (s / f) := by
  have h1 : f * f ≤ m / b := by
    have := Real.mul_self_sqrt (div_pos hm hb).le
    nlinarith [Real.sqrt_nonneg (m / b)]
  have h2 : f * f * b ≤ s := by
    rw [le_div_iff₀ hb] at h1; linarith
  rw [div_mul_div_comm, le_div_iff₀ (mul_pos hf hf)]
  nlinarith

/-- For two points the loop finishes after at most two rounds. -/
theorem C47_two_points_partial (L : Limits n) (p p' : Fin n → ℝ) :
    ∃ cs T, pbGenerate L 2 [p, p'] = some (cs, T) := by
  suffices h : ∃ cs, pbLoop L 2 (pbInit L [p, p']) = some cs by
    obtain ⟨cs, h⟩ := h
    obtain ⟨-, -, -, hq⟩ := pbLoop_spec 2 (pbInit_in L [p, p']) h
    rw [pbInit_q] at hq
    match cs, hq with
    | [c, c'], _ =>
      refine ⟨[c, { c' with dt := 0 }], c.b / 2 + c.dt + 0 + c'.b / 2, ?_⟩
      simp only [pbGenerate, if_neg (List.cons_ne_nil p [p']), h]
      rfl
  set s := pbLimit p' p L.vmin L.vmax with hsdef
  have hs : 0 < s := pbLimit_pos _ _ _ _
  have hmin : dblMin ≤ s := le_maxOver _ _
  set A := (pbTwo L p p' s).1 with hA
  set B := (pbTwo L p p' s).2 with hB
  have hpass : pbPass L none (pbInit L [p, p']) = [A, B] := pbPass_two L _ _ rfl rfl
  have hAdt : A.dt = s := rfl
  have hBdt : B.dt = dblMax := rfl
  have hAb : 0 < A.b := pbLimit_pos _ _ _ _
  have hBb : 0 < B.b := pbLimit_pos _ _ _ _
  by_cases hflag : (pbCheck none [A, B]).2 = true
  swap
  · refine ⟨pbScale [A, B] (pbCheck none [A, B]).1, ?_⟩
    rw [pbLoop, hpass]
    exact if_neg hflag
  set f0 := pbFactor none A (some B) with hf0
  set f1 := pbFactor (some A) B none with hf1
  have hstep : pbLoop L 2 (pbInit L [p, p']) = pbLoop L 1 [{ A with dt := s / min f1 f0 }, B] := by
    rw [pbLoop, hpass]
    exact if_pos hflag
  have ho : (s < A.b ∧ 2 * s - B.b < A.b) ∨ (s < B.b ∧ 2 * s - A.b < B.b) := by
    simpa [pbCheck, pbOverlap, hAdt] using hflag
  have hm : 0 < min dblMax s := lt_min dblMax_pos hs
  have hle : min dblMax s ≤ s := min_le_right _ _
  have e0 : pbOverlap none A (some B) = true ↔ (s < A.b ∧ 2 * s - B.b < A.b) := by
    simp [pbOverlap, hAdt]
  have e1 : pbOverlap (some A) B none = true ↔ (s < B.b ∧ 2 * s - A.b < B.b) := by
    simp [pbOverlap, hAdt]
  have k0 : f0 = if (s < A.b ∧ 2 * s - B.b < A.b) then Real.sqrt (min dblMax s / A.b) else 1 := by
    rw [hf0, pbFactor]
    by_cases h : s < A.b ∧ 2 * s - B.b < A.b
    · rw [if_pos (e0.2 h), if_pos h]; rfl
    · rw [if_neg (fun h' => h (e0.1 h')), if_neg h]
  have k1 : f1 = if (s < B.b ∧ 2 * s - A.b < B.b) then Real.sqrt (min dblMax s / B.b) else 1 := by
    rw [hf1, pbFactor]
    by_cases h : s < B.b ∧ 2 * s - A.b < B.b
    · rw [if_pos (e1.2 h), if_pos h, min_comm dblMax s]; rfl
    · rw [if_neg (fun h' => h (e1.1 h')), if_neg h]
  have p0 : 0 < f0 := by
    rw [k0]; split
    · exact Real.sqrt_pos.2 (div_pos hm hAb)
    · exact one_pos
  have p1 : 0 < f1 := by
    rw [k1]; split
    · exact Real.sqrt_pos.2 (div_pos hm hBb)
    · exact one_pos
  have l0 : f0 ≤ 1 := by
    rw [k0]; split
    · rename_i h
      rw [← Real.sqrt_one]
      exact Real.sqrt_le_sqrt ((div_le_one hAb).2 (by linarith [h.1]))
    · exact le_rfl
  have hf := lt_min p1 p0
  set f := min f1 f0 with hfdef
  have hs' : s ≤ s / f := by
    rw [le_div_iff₀ hf]; nlinarith [(min_le_right f1 f0).trans l0]
  have q0 : s * A.b ≤ (s / f) * (s / f) := by
    by_cases h : s < A.b ∧ 2 * s - B.b < A.b
    · refine div_sqrt_sq hs hAb hm hle hf ?_
      refine (min_le_right f1 f0).trans (le_of_eq ?_)
      rw [k0, if_pos h]
    · have : A.b ≤ s := by
        rcases ho with h' | h'
        · exact absurd h' h
        · by_contra hc
          exact h ⟨not_le.1 hc, by linarith [h'.1, not_le.1 hc]⟩
      nlinarith
  have q1 : s * B.b ≤ (s / f) * (s / f) := by
    by_cases h : s < B.b ∧ 2 * s - A.b < B.b
    · refine div_sqrt_sq hs hBb hm hle hf ?_
      refine (min_le_left f1 f0).trans (le_of_eq ?_)
      rw [k1, if_pos h]
    · have : B.b ≤ s := by
        rcases ho with h' | h'
        · by_contra hc
          exact h ⟨not_le.1 hc, by linarith [h'.1, not_le.1 hc]⟩
        · exact absurd h' h
      nlinarith
  have hs'p : 0 < s / f := div_pos hs hf
  have hr : 0 < s / f / s := div_pos hs'p hs
  rw [hstep]
  refine pbLoop_two_stop L _ _ rfl rfl 0 ?_ ?_
  · show pbLimit (fun i => (p' i - p i) / (s / f)) (fun _ => 0) L.amin L.amax ≤ s / f
    have h : pbLimit (fun i => (p' i - p i) / s) 0 L.amin L.amax ≤ s / f / s * (s / f) := by
      rw [div_mul_eq_mul_div, le_div_iff₀ hs, mul_comm]; exact q0
    have := pbLimit_stretch hr (hmin.trans hs') h
    have e : (fun i => (p' i - p i) / (s / f)) = fun i => (p' i - p i) / s / (s / f / s) := by
      funext i; field_simp
    rw [e]; exact this
  · show pbLimit (fun _ => 0) (fun i => (p' i - p i) / (s / f)) L.amin L.amax ≤ s / f
    have h : pbLimit (fun i => 0 - (p' i - p i) / s) 0 L.amin L.amax ≤ s / f / s * (s / f) := by
      rw [← pbLimit_sub (fun _ => 0)]
      rw [div_mul_eq_mul_div, le_div_iff₀ hs, mul_comm]; exact q1
    have := pbLimit_stretch hr (hmin.trans hs') h
    have e : (fun i => 0 - (p' i - p i) / (s / f)) =
        fun i => (0 - (p' i - p i) / s) / (s / f / s) := by
      funext i; field_simp; ring
    rw [pbLimit_sub, e]; exact this

/-- Two joints, two points, with finite positive limits: the hypotheses of `C47_blend_partial`. -/
example : slowJoint.Ok ∧ ∃ cs T, pbGenerate slowJoint 2 [![0, 0], ![1, -3]] = some (cs, T) :=
  ⟨by intro i; fin_cases i <;> simp [slowJoint], C47_two_points_partial _ _ _⟩

end Verif.Ct
