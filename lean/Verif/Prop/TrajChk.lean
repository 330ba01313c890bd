import Verif.Proof.TrajChk

/-!
# C135: checking a trajectory for continuity

`aa_ct_seg_list_check_c0(segs, dt, tol, eps)` should answer 0 exactly when the curve moves by at
most `tol` (sum over the joints) between consecutive samples, and by at most `eps` where segments
meet, and leave the memory region of the thread as it found it.
-/

namespace Verif.Ct

open Set

variable {n : Nat}

/-- Between consecutive samples on `[0,T]` the curve moves by at most `tol`, in the sum over the
joints. -/
def SmallSteps (Q : ℝ → Fin n → ℝ) (T dt tol : ℝ) : Prop :=
  ∀ k : Nat, (k + 1) * dt ≤ T → ∑ i, |Q ((k + 1) * dt) i - Q (k * dt) i| ≤ tol

/-- Blended trajectories: when the first segment is at least as long as one step, the function ends,
and it answers 0 exactly when every step is small, otherwise 1.  (The curve given by
`C47_blend_partial` has no jumps.) -/
theorem C135_blend_partial (L : Limits n) (fuel : Nat) (p : Fin n → ℝ) (ps : List (Fin n → ℝ))
    (cs : List (Pb n)) (T : ℝ) (h : pbGenerate L fuel (p :: ps) = some (cs, T))
    (Q D : ℝ → Fin n → ℝ) (hQ : Follows (pbSegs none cs) T Q D)
    (dt tol eps : ℝ) (hdt : 0 < dt) (he : 0 ≤ eps)
    (hfirst : ∀ s, (pbSegs none cs).head? = some s → ∀ st, (s st dt).1 = true) :
    ∃ fuel' code sw, checkC0 (pbT none cs) dt tol eps fuel' none = some (code, sw) ∧
      (SmallSteps Q T dt tol → code = 0) ∧ (¬ SmallSteps Q T dt tol → code = 1) := by
  obtain ⟨hne, hch⟩ := pb_chain h
  obtain ⟨⟨Q', ha⟩, hends⟩ := pb_facts h
  have hQQ : ∀ t ∈ Icc 0 T, Q' t = Q t := by
    intro t ht
    obtain ⟨st', it, h1, h2, -⟩ := (hQ (stZero n) t).1 ht
    rw [← h2, ← listEval_agree ha h1 rfl]
  cases hsegs : pbSegs none cs with
  | nil => exact absurd hsegs hne
  | cons s rest =>
    have hd := hfirst s (by rw [hsegs]; rfl)
    have h0 : ∀ st, (s st 0).1 = true := by
      have hch' := hch
      rw [hsegs] at hch'
      obtain ⟨b, hb, hin, -, -⟩ := hch'
      exact fun st => (hin st 0).2 ⟨le_rfl, hb⟩
    have hr : listEval (pbSegs none cs) none (stZero n) dt =
        some (true, (s (stZero n) dt).2, some 0) := by
      rw [hsegs]
      refine (if_neg (List.cons_ne_nil s rest)).trans ?_
      exact congrArg some (evalFrom_in _ _ _ _ _ (hd _))
    have hi : ItInv obsQ (pbSegs none cs) T (some 0) dt := by
      obtain ⟨r, hr', hi', -⟩ := listEval_step hne hch (it := none) (T := dt) (t := dt)
        (fun k hk => by cases hk) le_rfl (stZero n)
      rw [hr] at hr'
      obtain rfl := Option.some.inj hr'
      exact hi'
    obtain ⟨fuel', l, hl⟩ := c0Steps_ends hne hch dt hdt tol (some 0) (stZero n)
      (s (stZero n) dt).2 hi false
    have hv := c0Steps_value hne hch ha (pbSegs_same none cs) dt hdt tol fuel' 0 (some 0) (stZero n)
      (s (stZero n) dt).2 false l (by simpa using hi)
      (Or.inr ⟨rfl, fun s' hs' st => by
        rw [hsegs] at hs'
        obtain rfl := Option.some.inj hs'
        simpa using ⟨h0 st, hd st⟩⟩) (by simpa using hl)
    have hsm : l.fail = true ↔ ¬ SmallSteps Q T dt tol := by
      rw [hv]
      unfold SmallSteps
      push Not
      constructor
      · rintro ⟨k, -, h1, h2⟩
        refine ⟨k, by simpa using h1, ?_⟩
        have e1 := hQQ ((k + 1 : Nat) * dt) ⟨by positivity, h1⟩
        have e0 := hQQ (k * dt) ⟨by positivity, by push_cast at h1; linarith⟩
        rw [e1, e0] at h2
        push_cast at h2
        exact h2
      · rintro ⟨k, h1, h2⟩
        have h1' : ((k + 1 : Nat) : ℝ) * dt ≤ T := by push_cast; exact h1
        refine ⟨k, Nat.zero_le _, h1', ?_⟩
        rw [hQQ _ ⟨by positivity, h1'⟩, hQQ (k * dt) ⟨by positivity, by linarith⟩]
        push_cast
        exact h2
    have hcheck : checkC0 (pbT none cs) dt tol eps fuel' none =
        some (if l.fail = true then 1 else 0, l.swapped) := by
      simp only [checkC0, pbT_ev, hr, Option.bind_eq_bind, Option.bind_some, hl, hends eps he]
      split <;> rfl
    refine ⟨fuel', _, _, hcheck, ?_, ?_⟩
    · intro hs
      exact if_neg fun hf => hsm.1 hf hs
    · intro hs
      exact if_pos (hsm.2 hs)

theorem listEval_cons (s : Seg n) (rest : List (Seg n)) (it : Option Nat) (st : St n) (t : ℝ) :
    listEval (s :: rest) it st t =
      some (evalFrom ((s :: rest).drop (it.getD 0)) (it.getD 0) st t) :=
  if_neg (List.cons_ne_nil s rest)

/-! ## Defects -/

/-- One joint, unit limits. -/
noncomputable def unitJoint : Limits 1 := ⟨fun _ => -1, fun _ => 1, fun _ => -1, fun _ => 1⟩

/-- The linear trajectory through 0, 10 and 20. -/
noncomputable def line20 : List (SegDq 1) :=
  [⟨fun _ => 0, fun _ => 1, 0, 10⟩, ⟨fun _ => 10, fun _ => 1, 10, 20⟩]

theorem line20_generated :
    linGenerate unitJoint [fun _ => 0, fun _ => 10, fun _ => 20] = some (line20, 20) := by
  have h1 : segDqNew unitJoint 0 (fun _ => 0) (fun _ => 10) = some ⟨fun _ => 0, fun _ => 1, 0, 10⟩ := by
    norm_num [segDqNew, unitJoint, maxOver, linTime]
  have h2 : segDqNew unitJoint 10 (fun _ => 10) (fun _ => 20) =
      some ⟨fun _ => 10, fun _ => 1, 10, 20⟩ := by
    norm_num [segDqNew, unitJoint, maxOver, linTime]
  simp only [linGenerate, linLoop, Option.bind_eq_bind, h1, h2, Option.bind_some]
  rfl

/-- Defect: the linear trajectory through 0, 10 and 20 is `Q t = t`; with a step of 6 no step is
larger than 6, but the function compares the position at 12 with the end 20 of the trajectory,
which the segment evaluated outside of its interval stores, and answers 1 for a tolerance of 7. -/
theorem C135_violates_linear :
    linGenerate unitJoint [fun _ => 0, fun _ => 10, fun _ => 20] = some (line20, 20) ∧
    Follows (line20.map SegDq.eval) 20 (fun t _ => t) (fun _ _ => 1) ∧
    SmallSteps (n := 1) (fun t _ => t) 20 6 7 ∧
    checkC0 (linT line20) 6 7 0 2 none = some (1, true) := by
  refine ⟨line20_generated, ?_, ?_, ?_⟩
  · intro st t
    have e : listEval (line20.map SegDq.eval) none st t =
        some (evalFrom (line20.map SegDq.eval) 0 st t) := if_neg (by simp [line20])
    rw [e]
    simp only [line20, List.map_cons, List.map_nil]
    constructor
    · rintro ⟨h0, h1⟩
      by_cases h : t ≤ 10
      · refine ⟨_, some 0, congrArg some (evalFrom_in _ _ _ _ _ ?_), ?_, ?_⟩
        · exact (dq_in _ _ _).2 ⟨h0, h⟩
        · simp only [SegDq.eval]; rw [if_pos ⟨h0, h⟩]; simp
        · simp only [SegDq.eval]; rw [if_pos ⟨h0, h⟩]
      · rw [evalFrom_nil_tail]
        · refine ⟨_, some 1, congrArg some (evalFrom_in _ _ _ _ _ ?_), ?_, ?_⟩
          · exact (dq_in _ _ _).2 ⟨(not_le.1 h).le, h1⟩
          · simp only [SegDq.eval]; rw [if_pos ⟨(not_le.1 h).le, h1⟩]; simp
          · simp only [SegDq.eval]; rw [if_pos ⟨(not_le.1 h).le, h1⟩]
        · simp only [SegDq.eval]; rw [if_neg (fun hh => h hh.2)]
    · intro ht
      have h1 : ¬ ((0 : ℝ) ≤ t ∧ t ≤ 10) := fun h => ht ⟨h.1, by linarith [h.2]⟩
      have h2 : ¬ ((10 : ℝ) ≤ t ∧ t ≤ 20) := fun h => ht ⟨by linarith [h.1], h.2⟩
      simp only [evalFrom, SegDq.eval, if_neg h1, if_neg h2]
      exact ⟨_, _, rfl⟩
  · intro k hk
    have : ((k : ℝ) + 1) * 6 - k * 6 = 6 := by ring
    simp only [Finset.univ_unique, Finset.sum_const, Finset.card_singleton, one_smul, this]
    norm_num
  · norm_num [checkC0, linT, line20, listEval_cons, evalFrom, SegDq.eval, c0Steps, stZero, dist1]

/-- Defect: a trapezoidal trajectory is never accepted: the type of its first segment is unknown to
the function. -/
theorem C135_violates_trap (l : List (Trap n)) (hl : l ≠ []) (dt tol eps : ℝ) (fuel : Nat)
    (it : Option Nat) (code : Int) (sw : Bool)
    (h : checkC0 (trapT l) dt tol eps fuel it = some (code, sw)) : code = 1 ∨ code = 3 := by
  cases l with
  | nil => exact absurd rfl hl
  | cons s l =>
    simp only [checkC0, Option.bind_eq_bind, Option.bind_eq_some_iff] at h
    obtain ⟨r, -, x, -, h⟩ := h
    split at h
    · simp only [Option.some.injEq, Prod.mk.injEq] at h
      exact Or.inl h.1.symm
    · simp only [trapT, List.flatMap_cons, List.cons_append, c0Ends, Option.bind_some,
        Option.some.injEq, Prod.mk.injEq] at h
      exact Or.inr h.1.symm

/-- The answer exists: for the trapezoids `aa_ct_tjq_trap_generate` makes, the function ends. -/
theorem C135_trap_ends (L : Limits n) (hL : L.Ok) (p p' : Fin n → ℝ) (ps : List (Fin n → ℝ))
    (segs : List (Trap n)) (T : ℝ) (h : trapGenerate L (p :: p' :: ps) = some (segs, T))
    (dt tol eps : ℝ) (hdt : 0 < dt) :
    ∃ fuel code sw, checkC0 (trapT segs) dt tol eps fuel none = some (code, sw) := by
  have hev : (trapT segs).map TSeg.ev = trapSegs (-1) segs := by
    simp only [trapT, trapSegs, List.map_flatMap]
    rfl
  have hne : segs ≠ [] := by
    obtain ⟨s, rest, rfl, -⟩ := trapLoop_spec hL ps h
    simp
  have hch := trap_chain hL (-1) _ h
  have hne' : trapSegs (-1) segs ≠ [] := by
    cases segs with
    | nil => exact absurd rfl hne
    | cons s l => simp [trapSegs]
  obtain ⟨r, hr, hi, -⟩ := listEval_step hne' hch (it := none) (T := dt) (t := dt)
        (fun k hk => by cases hk) le_rfl (stZero n)
  obtain ⟨fuel, l, hl⟩ := c0Steps_ends hne' hch dt hdt tol r.2.2 (stZero n) r.2.1 hi false
  refine ⟨fuel, ?_⟩
  simp only [checkC0, hev, hr, Option.bind_eq_bind, Option.bind_some, hl]
  split
  · exact ⟨_, _, rfl⟩
  · cases segs with
    | nil => exact absurd rfl hne
    | cons s l' => exact ⟨3, l.swapped, rfl⟩

/-- The blended trajectory of one joint from 100 to 102. -/
noncomputable def hundred : List (Pb 1) :=
  [.mk (fun _ => 100) (fun _ => 1) (fun _ => 1) (1 / 2) 2 1,
   .mk (fun _ => 102) (fun _ => 0) (fun _ => -1) (5 / 2) 0 1]

theorem dblMin_le_one : dblMin ≤ 1 := by
  unfold dblMin
  rw [div_le_one (by positivity)]
  exact one_le_pow₀ (by norm_num)

theorem pbLimit_one (a b lo hi x : ℝ) (h : (if a - b < 0 then (a - b) / lo else (a - b) / hi) = x)
    (hx : 1 ≤ x) : pbLimit (n := 1) (fun _ => a) (fun _ => b) (fun _ => lo) (fun _ => hi) = x := by
  simp only [pbLimit, maxOver, h]
  simp [dblMin_le_one.trans hx]

theorem hundred_generated :
    pbGenerate unitJoint 1 [fun _ => 100, fun _ => 102] = some (hundred, 3) := by
  have h1 : pbLimit (n := 1) (fun _ => 102) (fun _ => 100) (fun _ => -1) (fun _ => 1) = 2 :=
    pbLimit_one _ _ _ _ _ (by norm_num) (by norm_num)
  have h2 : pbLimit (n := 1) (fun _ => 1) (fun _ => 0) (fun _ => -1) (fun _ => 1) = 1 :=
    pbLimit_one _ _ _ _ _ (by norm_num) (by norm_num)
  have h3 : pbLimit (n := 1) (fun _ => 0) (fun _ => 1) (fun _ => -1) (fun _ => 1) = 1 :=
    pbLimit_one _ _ _ _ _ (by norm_num) (by norm_num)
  have hpass : pbPass unitJoint none (pbInit unitJoint [fun _ => 100, fun _ => 102]) =
      [.mk (fun _ => 100) (fun _ => 1) (fun _ => 1) (1 / 2) 2 1,
       .mk (fun _ => 102) (fun _ => 0) (fun _ => -1) (5 / 2) dblMax 1] := by
    have d1 : ((102 : ℝ) - 100) / 2 = 1 := by norm_num
    simp only [pbInit, pbPass, pbNew, pbUpdate, unitJoint, List.head?_cons, List.head?_nil, h1, d1,
      h2, h3]
    norm_num
  have hloop : pbLoop unitJoint 1 (pbInit unitJoint [fun _ => 100, fun _ => 102]) =
      some [.mk (fun _ => 100) (fun _ => 1) (fun _ => 1) (1 / 2) 2 1,
       .mk (fun _ => 102) (fun _ => 0) (fun _ => -1) (5 / 2) dblMax 1] := by
    simp only [pbLoop, hpass]
    norm_num [pbCheck, pbOverlap, pbFactor, pbScale]
  simp only [pbGenerate, hloop, if_neg (List.cons_ne_nil _ _)]
  norm_num [pbLast, hundred]

/-- Defect: a step longer than the first segment.  The blended trajectory from 100 to 102 takes 3
seconds; sampled every 3 seconds it moves by 2.  The function compares the end with a state that
was never evaluated, which is zero, and answers 1 for a tolerance of 50. -/
theorem C135_violates_first_step :
    pbGenerate unitJoint 1 [fun _ => 100, fun _ => 102] = some (hundred, 3) ∧
    (∀ Q D, Follows (pbSegs none hundred) 3 Q D → SmallSteps Q 3 3 50) ∧
    checkC0 (pbT none hundred) 3 50 0 1 none = some (1, false) := by
  refine ⟨hundred_generated, ?_, ?_⟩
  · intro Q D hQ k hk
    have hk0 : k = 0 := by
      by_contra hc
      have : (1 : ℝ) ≤ k := by exact_mod_cast Nat.one_le_iff_ne_zero.2 hc
      linarith
    subst hk0
    have e0 : Q 0 = fun _ => 100 := by
      obtain ⟨st', it, h1, h2, -⟩ := (hQ (stZero 1) 0).1 ⟨le_rfl, by norm_num⟩
      rw [← h2]
      norm_num [listEval_cons, evalFrom, hundred, pbSegs, pbEval] at h1
      rw [← h1.1]
    have e3 : Q 3 = fun _ => 102 := by
      obtain ⟨st', it, h1, h2, -⟩ := (hQ (stZero 1) 3).1 ⟨by norm_num, by norm_num⟩
      rw [← h2]
      norm_num [listEval_cons, evalFrom, hundred, pbSegs, pbEval] at h1
      rw [← h1.1]
    norm_num [e0, e3]
  · norm_num [checkC0, pbT, hundred, listEval_cons, evalFrom, pbEval, c0Steps, stZero, dist1]

/-! ### The memory region -/

/-- What a caller may rely on: no block it allocated before is lost, and the region ends as it
began. -/
def Restores (r : Region.Reg) (n : Nat) (code : Int) (swapped : Bool) (a : Nat) : Prop :=
  c0Region r n code swapped a = .ok r

/-- A region of 4096 bytes in which the caller has allocated 128. -/
def bigRegion : Region.Reg := ⟨1024 + 128, [⟨1024, 4112⟩], [⟨1024, 4112⟩]⟩

/-- A region of 496 bytes in which the caller has allocated 128. -/
def smallRegion : Region.Reg := ⟨1024 + 128, [⟨1024, 512⟩], [⟨1024, 512⟩]⟩

/-- Defect: the region is restored only when the number of samples is odd.  A trajectory shorter
than one step is accepted with the pointers in place: the first state is released, then the second,
which moves the head of the region up to the second state again.  A rejected trajectory releases
nothing. -/
theorem C135_violates_region :
    Restores bigRegion 2 0 true (2 ^ 20) ∧
    (∃ r, c0Region bigRegion 2 0 false (2 ^ 20) = .ok r ∧ bigRegion.head < r.head) ∧
    (∃ r, c0Region bigRegion 2 1 false (2 ^ 20) = .ok r ∧ bigRegion.head < r.head) := by
  refine ⟨by unfold Restores; decide +kernel, ?_, ?_⟩
  · exact ⟨⟨1472, [⟨1024, 4112⟩], [⟨1024, 4112⟩]⟩, by decide +kernel, by decide +kernel⟩
  · exact ⟨⟨1792, [⟨1024, 4112⟩], [⟨1024, 4112⟩]⟩, by decide +kernel, by decide +kernel⟩

/-- Such a trajectory: one segment of one second, checked with a step of two. -/
theorem C135_violates_region_reached :
    checkC0 (linT [(⟨fun _ => 0, fun _ => 1, 0, 1⟩ : SegDq 2)]) 2 7 0 1 none = some (0, false) := by
  norm_num [checkC0, linT, listEval_cons, evalFrom, SegDq.eval, c0Steps, c0Ends, stZero]

/-- Defect: when the second state did not fit the chunk holding the first, releasing the first frees
the chunk of the second, and releasing the second frees every chunk of the region: the 128 bytes the
caller had allocated are gone. -/
theorem C135_violates_region_lost :
    ∃ r, c0Region smallRegion 2 0 false (2 ^ 20) = .ok r ∧
      (⟨1024, 512⟩ : Region.Chunk) ∈ smallRegion.heap ∧ (⟨1024, 512⟩ : Region.Chunk) ∉ r.heap := by
  exact ⟨_, rfl, by decide, by decide⟩

/-- Both regions arise from `aa_mem_region_init` and one allocation of 128 bytes. -/
example : (do let r ← Region.init 4096 1008; Region.alloc r 128 1) = .ok (bigRegion, 1024) ∧
    (do let r ← Region.init 496 1008; Region.alloc r 128 1) = .ok (smallRegion, 1024) := by
  decide +kernel

/-- The hypotheses of `C135_blend_partial`: the trajectory from 100 to 102 with a step of 1. -/
example : pbGenerate unitJoint 1 [fun _ => 100, fun _ => 102] = some (hundred, 3) ∧
    ∀ s, (pbSegs none hundred).head? = some s → ∀ st, (s st 1).1 = true := by
  refine ⟨hundred_generated, fun s hs st => ?_⟩
  simp only [hundred, pbSegs, List.head?_cons, Option.some.injEq] at hs
  subst hs
  norm_num [pbEval]

end Verif.Ct
