import Verif.Model.TrajArr
import Verif.Prop.TrajChk

/-!
# C136: evaluating a trajectory into arrays
-/

namespace Verif.Ct

open Set

variable {k : Nat}

/-! ## Specification -/

/-- The first `n` elements of `a` (as far as the trajectory has joints) are those of `v`, and all
others those of `a0`. -/
def Filled (n : Nat) (v : Fin k → ℝ) (a0 a : Nat → ℝ) : Prop :=
  (∀ i : Fin k, i.1 < n → a i.1 = v i) ∧ ∀ i, n ≤ i ∨ k ≤ i → a i = a0 i

/-! ## Proofs -/

theorem arr_fin (f : Fin k → ℝ) (i : Fin k) : arr f i.1 = f i := by simp [arr]

theorem wr_filled (n : Nat) (v : Fin k → ℝ) (a : Nat → ℝ) : Filled n v a (wr (min k n) (arr v) a) := by
  constructor
  · intro i hi
    have : i.1 < min k n := lt_min i.2 hi
    simp only [wr, if_pos this, arr_fin]
  · intro i hi
    have : ¬ i < min k n := by
      rcases hi with hi | hi <;> omega
    simp only [wr, if_neg this]

theorem wr_wr (m : Nat) (f g a : Nat → ℝ) : wr m f (wr m g a) = wr m f a := by
  funext i; simp only [wr]; split <;> rfl

/-- Evaluating constant-velocity segments into an array stores what evaluating into a state gives. -/
theorem evalFromP_lin (l : List (SegDq k)) : ∀ (i : Nat) (n : Nat) (q0 : Nat → ℝ) (q : Nat → ℝ)
    (dq : Option (Nat → ℝ)) (ddq : Option (Nat → ℝ)) (st : St k) (t : ℝ),
    (q = q0 ∨ ∃ g, q = wr (min k n) g q0) →
    ∃ q' dq', evalFromP (linP l) i ⟨n, some q, dq, ddq⟩ t =
        some ((evalFrom (l.map SegDq.eval) i st t).1, ⟨n, some q', dq', ddq⟩,
          (evalFrom (l.map SegDq.eval) i st t).2.2) ∧
      ((evalFrom (l.map SegDq.eval) i st t).1 = true →
        q' = wr (min k n) (arr (evalFrom (l.map SegDq.eval) i st t).2.1.q) q0 ∧
        dq' = dq.map (wr (min k n) (arr (evalFrom (l.map SegDq.eval) i st t).2.1.dq))) ∧
      ((evalFrom (l.map SegDq.eval) i st t).1 = false → dq' = dq ∧
        (q' = q0 ∨ ∃ g, q' = wr (min k n) g q0)) := by
  induction l with
  | nil =>
    intro i n q0 q dq ddq st t h
    exact ⟨q, dq, rfl, fun hh => (Bool.false_ne_true hh).elim, fun _ => ⟨rfl, h⟩⟩
  | cons c l ih =>
    intro i n q0 q dq ddq st t h
    by_cases hin : c.t0 ≤ t ∧ t ≤ c.t1
    · have hc : c.eval st t = (true, { st with q := fun i => c.q0 i + (t - c.t0) * c.dq i, dq := c.dq }) :=
        if_pos hin
      have he : evalFrom ((c :: l).map SegDq.eval) i st t = (true, (c.eval st t).2, some i) :=
        evalFrom_in _ _ _ _ _ (by rw [hc])
      have hp : c.evalP ⟨n, some q, dq, ddq⟩ t = some (true,
          ⟨n, some (wr (min k n) (arr fun i => c.q0 i + (t - c.t0) * c.dq i) q),
            dq.map (wr (min k n) (arr c.dq)), ddq⟩) := if_pos hin
      refine ⟨_, _, ?_, fun _ => ⟨rfl, rfl⟩, fun hh => ?_⟩
      · rw [he, hc]
        simp only [linP, List.map_cons, evalFromP, hp, Option.bind_eq_bind, Option.bind_some, if_true]
        rcases h with rfl | ⟨g, rfl⟩
        · rfl
        · rw [wr_wr]
      · rw [he] at hh; cases hh
    · have hc : c.eval st t = (false, { st with q := fun i => c.q0 i + c.dq i * (c.t1 - c.t0) }) :=
        if_neg hin
      have hp : c.evalP ⟨n, some q, dq, ddq⟩ t = some (false,
          ⟨n, some (wr (min k n) (arr fun i => c.q0 i + c.dq i * (c.t1 - c.t0)) q), dq, ddq⟩) :=
        if_neg hin
      have he : evalFrom ((c :: l).map SegDq.eval) i st t =
          evalFrom (l.map SegDq.eval) (i + 1) (c.eval st t).2 t :=
        evalFrom_nil_tail _ _ _ _ _ (by rw [hc])
      have hq : ∃ g, wr (min k n) (arr fun i => c.q0 i + c.dq i * (c.t1 - c.t0)) q =
          wr (min k n) g q0 := by
        rcases h with rfl | ⟨g, rfl⟩
        · exact ⟨_, rfl⟩
        · exact ⟨_, wr_wr _ _ _ _⟩
      obtain ⟨q', dq', h1, h2, h3⟩ := ih (i + 1) n q0 _ dq ddq (c.eval st t).2 t (Or.inr hq)
      have hpe : evalFromP (linP (c :: l)) i ⟨n, some q, dq, ddq⟩ t = evalFromP (linP l) (i + 1)
          ⟨n, some (wr (min k n) (arr fun i => c.q0 i + c.dq i * (c.t1 - c.t0)) q), dq, ddq⟩ t := by
        cases l with
        | nil =>
          simp only [linP, List.map_cons, List.map_nil, evalFromP, hp, Option.bind_eq_bind,
            Option.bind_some, Bool.false_eq_true, if_false]
        | cons c' l =>
          simp only [linP, List.map_cons, evalFromP, hp, Option.bind_eq_bind,
            Option.bind_some, Bool.false_eq_true, if_false]
      rw [hpe, he]
      exact ⟨q', dq', h1, h2, h3⟩

theorem listEvalP_lin (l : List (SegDq k)) (hl : l ≠ []) (n : Nat) (q : Nat → ℝ)
    (dq : Option (Nat → ℝ)) (t : ℝ) {b : Bool} {st' : St k} {it : Option Nat}
    (h : listEval (l.map SegDq.eval) none (stZero k) t = some (b, st', it)) :
    ∃ q' dq', listEvalP (linP l) none ⟨n, some q, dq, none⟩ t = some (b, ⟨n, some q', dq', none⟩, it) ∧
      (b = true → q' = wr (min k n) (arr st'.q) q ∧ dq' = dq.map (wr (min k n) (arr st'.dq))) ∧
      (b = false → dq' = dq ∧ (q' = q ∨ ∃ g, q' = wr (min k n) g q)) := by
  have he : listEval (l.map SegDq.eval) none (stZero k) t =
      some (evalFrom (l.map SegDq.eval) 0 (stZero k) t) := if_neg (by simpa using hl)
  rw [he] at h
  have h := Option.some.inj h
  obtain ⟨q', dq', h1, h2, h3⟩ := evalFromP_lin l 0 n q q dq none (stZero k) t (Or.inl rfl)
  rw [h] at h1 h2 h3
  exact ⟨q', dq', (if_neg (by simpa [linP] using hl)).trans h1, h2, h3⟩

/-! ## C136 -/

/-- Linear trajectories: at a time of the trajectory, `aa_ct_seg_list_eval_q` fills the array of `n`
numbers with the position, and touches nothing behind it; outside it says so, and touches nothing
behind it. -/
theorem C136_linear_q_partial (L : Limits k) (hL : ∀ i, L.vmin i < 0 ∧ 0 < L.vmax i)
    (p p' : Fin k → ℝ) (ps : List (Fin k → ℝ)) (segs : List (SegDq k)) (T : ℝ)
    (h : linGenerate L (p :: p' :: ps) = some (segs, T))
    (Q D : ℝ → Fin k → ℝ) (hQ : Follows (segs.map SegDq.eval) T Q D)
    (n : Nat) (q : Nat → ℝ) (t : ℝ) :
    ∃ b q' it, evalQ (linP segs) none t n q = some (b, ⟨n, some q', none, none⟩, it) ∧
      (b = true ↔ t ∈ Icc 0 T) ∧ (b = true → Filled n (Q t) q q') ∧ ∀ i, n ≤ i → q' i = q i := by
  have hne : segs ≠ [] := by
    have := (lin_chain hL h).1
    simpa using this
  by_cases ht : t ∈ Icc 0 T
  · obtain ⟨st', it, h1, h2, -⟩ := (hQ (stZero k) t).1 ht
    obtain ⟨q', dq', h3, h4, -⟩ := listEvalP_lin segs hne n q none t h1
    obtain ⟨e1, e2⟩ := h4 rfl
    have hf : Filled n (Q t) q q' := by rw [e1, h2]; exact wr_filled n _ q
    refine ⟨true, q', it, ?_, ⟨fun _ => ht, fun _ => rfl⟩, fun _ => hf, fun i hi => hf.2 i (Or.inl hi)⟩
    rw [e2] at h3; exact h3
  · obtain ⟨st', it, h1⟩ := (hQ (stZero k) t).2 ht
    obtain ⟨q', dq', h3, -, h4⟩ := listEvalP_lin segs hne n q none t h1
    obtain ⟨e1, e2⟩ := h4 rfl
    refine ⟨false, q', it, ?_, ⟨fun hh => (Bool.false_ne_true hh).elim, fun hh => absurd hh ht⟩,
      fun hh => (Bool.false_ne_true hh).elim, fun i hi => ?_⟩
    · rw [e1] at h3; exact h3
    · rcases e2 with rfl | ⟨g, rfl⟩
      · rfl
      · exact if_neg (by omega)

/-- The same for `aa_ct_seg_list_eval_dq`, which also fills the array of velocities. -/
theorem C136_linear_dq_partial (L : Limits k) (hL : ∀ i, L.vmin i < 0 ∧ 0 < L.vmax i)
    (p p' : Fin k → ℝ) (ps : List (Fin k → ℝ)) (segs : List (SegDq k)) (T : ℝ)
    (h : linGenerate L (p :: p' :: ps) = some (segs, T))
    (Q D : ℝ → Fin k → ℝ) (hQ : Follows (segs.map SegDq.eval) T Q D)
    (n : Nat) (q dq : Nat → ℝ) (t : ℝ) :
    ∃ b q' dq' it, evalDq (linP segs) none t n q dq = some (b, ⟨n, some q', some dq', none⟩, it) ∧
      (b = true ↔ t ∈ Icc 0 T) ∧ (b = true → Filled n (Q t) q q' ∧ Filled n (D t) dq dq') ∧
      ∀ i, n ≤ i → q' i = q i ∧ dq' i = dq i := by
  have hne : segs ≠ [] := by
    have := (lin_chain hL h).1
    simpa using this
  by_cases ht : t ∈ Icc 0 T
  · obtain ⟨st', it, h1, h2, h2'⟩ := (hQ (stZero k) t).1 ht
    obtain ⟨q', dq', h3, h4, -⟩ := listEvalP_lin segs hne n q (some dq) t h1
    obtain ⟨e1, e2⟩ := h4 rfl
    have hf : Filled n (Q t) q q' := by rw [e1, h2]; exact wr_filled n _ q
    have hf' : Filled n (D t) dq (wr (min k n) (arr st'.dq) dq) := by rw [h2']; exact wr_filled n _ dq
    refine ⟨true, q', _, it, ?_, ⟨fun _ => ht, fun _ => rfl⟩, fun _ => ⟨hf, hf'⟩,
      fun i hi => ⟨hf.2 i (Or.inl hi), hf'.2 i (Or.inl hi)⟩⟩
    rw [e2] at h3; exact h3
  · obtain ⟨st', it, h1⟩ := (hQ (stZero k) t).2 ht
    obtain ⟨q', dq', h3, -, h4⟩ := listEvalP_lin segs hne n q (some dq) t h1
    obtain ⟨e1, e2⟩ := h4 rfl
    refine ⟨false, q', dq, it, ?_, ⟨fun hh => (Bool.false_ne_true hh).elim, fun hh => absurd hh ht⟩,
      fun hh => (Bool.false_ne_true hh).elim, fun i hi => ⟨?_, rfl⟩⟩
    · rw [e1] at h3; exact h3
    · rcases e2 with rfl | ⟨g, rfl⟩
      · rfl
      · exact if_neg (by omega)

/-- Defect: `aa_ct_seg_list_eval_q` on a trapezoidal trajectory stores velocities through a null
pointer, at every time of the first acceleration. -/
theorem C136_violates_trap_q (s : Trap k) (l : List (Trap k)) (t : ℝ)
    (ht : s.acc.t0 ≤ t ∧ t ≤ s.acc.t1) (n : Nat) (hn : 0 < n) (hk : 0 < k) (q : Nat → ℝ) :
    evalQ (trapP (s :: l)) none t n q = none := by
  have hm : ¬ min k n = 0 := by omega
  have e : s.acc.evalP ⟨n, some q, none, none⟩ t = none := by
    simp only [SegDdq.evalP, if_pos ht, if_neg hm]
  have hne : trapP (s :: l) ≠ [] := by simp [trapP]
  unfold evalQ listEvalP
  rw [if_neg hne]
  simp only [trapP, List.flatMap_cons, List.cons_append, Option.getD_none, List.drop_zero, evalFromP,
    e, Option.bind_eq_bind, Option.bind_none]

theorem evalFromP_pb (cs : List (Pb k)) (hk : 0 < k) : ∀ (p : Option (Pb k)) (i : Nat) (st : StP)
    (t : ℝ), (st.ddq = none ∨ st.n < k) →
    (evalFrom (pbSegs p cs) i (stZero k) t).1 = true → evalFromP (pbP p cs) i st t = none := by
  induction cs with
  | nil => intro p i st t _ h; simp [pbSegs, evalFrom] at h
  | cons c cs ih =>
    intro p i st t hst h
    rcases Bool.eq_false_or_eq_true (pbEval p c cs.head? (stZero k) t).1 with hb | hb
    · have e : pbEvalP p c cs.head? st t = none := by
        have : pbEvalP p c cs.head? st t = pbStore (pbEval p c cs.head? (stZero k) t).2.q
            (pbEval p c cs.head? (stZero k) t).2.dq (pbEval p c cs.head? (stZero k) t).2.ddq st :=
          if_pos hb
        rw [this, pbStore]
        rcases hst with hst | hst
        · rw [hst]
          split
          · rename_i h3; cases h3
          · exact if_neg (by omega)
        · split
          · exact if_neg (by omega)
          · exact if_neg (by omega)
      simp only [pbP, evalFromP, e, Option.bind_eq_bind, Option.bind_none]
    · have e : pbEvalP p c cs.head? st t = some (false, st) := if_neg (by
        intro hh; have := hh.symm.trans hb; cases this)
      simp only [pbSegs] at h
      rw [evalFrom_nil_tail _ _ _ _ _ hb, Verif.TjXPb.pbEval_false p c cs.head? _ t hb] at h
      have := ih (some c) (i + 1) st t hst h
      cases cs with
      | nil => simp [pbSegs, evalFrom] at h
      | cons c' cs =>
        simp only [pbP, evalFromP, e, Option.bind_eq_bind, Option.bind_some, Bool.false_eq_true,
          if_false] at this ⊢
        exact this

/-- Defect: on a blended trajectory both functions store accelerations through a null pointer, at
every time of the trajectory. -/
theorem C136_violates_blend (L : Limits k) (fuel : Nat) (p : Fin k → ℝ) (ps : List (Fin k → ℝ))
    (cs : List (Pb k)) (T : ℝ) (h : pbGenerate L fuel (p :: ps) = some (cs, T)) (hk : 0 < k)
    (t : ℝ) (ht : t ∈ Icc 0 T) (n : Nat) (q dq : Nat → ℝ) :
    evalQ (pbP none cs) none t n q = none ∧ evalDq (pbP none cs) none t n q dq = none := by
  obtain ⟨hne, hch⟩ := pb_chain h
  have hin := (listEval_fresh hne hch (stZero k) t).2 ht
  have hne' : pbP none cs ≠ [] := by
    cases cs with
    | nil => simp [pbSegs] at hne
    | cons c cs => simp [pbP]
  exact ⟨(if_neg hne').trans (evalFromP_pb cs hk none 0 _ t (Or.inl rfl) hin),
    (if_neg hne').trans (evalFromP_pb cs hk none 0 _ t (Or.inl rfl) hin)⟩

/-- Defect: `aa_ct_seg_list_eval` with a state of fewer joints than a blended trajectory stores past
the end of the arrays of the state; evaluation of linear segments stops at the shorter length. -/
theorem C136_violates_blend_length (L : Limits k) (fuel : Nat) (p : Fin k → ℝ)
    (ps : List (Fin k → ℝ)) (cs : List (Pb k)) (T : ℝ)
    (h : pbGenerate L fuel (p :: ps) = some (cs, T)) (t : ℝ) (ht : t ∈ Icc 0 T) (st : StP)
    (hn : st.n < k) : listEvalP (pbP none cs) none st t = none := by
  obtain ⟨hne, hch⟩ := pb_chain h
  have hin := (listEval_fresh hne hch (stZero k) t).2 ht
  have hne' : pbP none cs ≠ [] := by
    cases cs with
    | nil => simp [pbSegs] at hne
    | cons c cs => simp [pbP]
  exact (if_neg hne').trans (evalFromP_pb cs (by omega) none 0 _ t (Or.inr hn) hin)

/-- Defect: outside the trajectory, `aa_ct_seg_list_eval_q` of a linear trajectory overwrites the
array with the end of the trajectory, even for a time before its start. -/
theorem C136_violates_outside (q : Nat → ℝ) :
    ∃ q' it, evalQ (linP line20) none (-1) 1 q = some (false, ⟨1, some q', none, none⟩, it) ∧
      q' 0 = 20 := by
  refine ⟨wr 1 (arr fun _ : Fin 1 => 20) (wr 1 (arr fun _ : Fin 1 => 10) q), none, ?_, ?_⟩
  · have hne : linP line20 ≠ [] := by simp [linP, line20]
    unfold evalQ listEvalP
    rw [if_neg hne]
    norm_num [linP, line20, evalFromP, SegDq.evalP]
  · simp [wr, arr]

/-- The hypotheses of the partial theorems: the trajectory through 0, 10 and 20. -/
example : (∀ i, unitJoint.vmin i < 0 ∧ 0 < unitJoint.vmax i) ∧
    linGenerate unitJoint [fun _ => 0, fun _ => 10, fun _ => 20] = some (line20, 20) ∧
    Follows (line20.map SegDq.eval) 20 (fun t _ => t) (fun _ _ => 1) :=
  ⟨fun _ => by norm_num [unitJoint], line20_generated, C135_violates_linear.2.1⟩

/-- The hypotheses of `C136_violates_blend`. -/
example : pbGenerate unitJoint 1 [fun _ => 100, fun _ => 102] = some (hundred, 3) ∧
    (1 : ℝ) ∈ Icc (0 : ℝ) 3 := ⟨hundred_generated, by norm_num⟩

end Verif.Ct
