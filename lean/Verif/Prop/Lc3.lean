import Verif.Model.Lc3
import Verif.Prop.Opt
import Mathlib.Tactic.IntervalCases
import Mathlib.Tactic.FinCases

/-!
# C60: constrained velocity control respects the limits
-/

namespace Verif.Lc3

open Verif.Opt

/-- `x` satisfies the constraints of the linear program. -/
def Feasible (nX nQ : Nat) (J Js : Nat → Nat → ℝ) (lim : Nat → Lim) (dt : ℝ)
    (dxR qA dqA dqR x : Nat → ℝ) : Prop :=
  (∀ j, j ≤ nX → (xBnd nX (objC nX nQ J dt dxR dqA) j).1 ≤ x j ∧
    x j ≤ (xBnd nX (objC nX nQ J dt dxR dqA) j).2) ∧
  ∀ i, i < nQ → Within (bMin (lim i) dt (qA i) (dqA i)) (bMax (lim i) dt (qA i) (dqA i))
    (rowVal (nX + 1) (conA nX nQ J Js dt dqA dqR i) x)

/-- What the bounds guarantee. -/
theorem bounds_sound (L : Lim) (dt q dq v : ℝ) (hdt : 0 < dt)
    (h : Within (bMin L dt q dq) (bMax L dt q dq) v) :
    Within L.dqMin L.dqMax (dq + v) ∧ Within L.ddqMin L.ddqMax (v / dt) := by
  have coe : ∀ {e : EReal}, isFinite e → ((e.toReal : ℝ) : EReal) = e := fun h =>
    EReal.coe_toReal h.2 h.1
  have inf : ∀ {e : EReal}, ¬ isFinite e → e = ⊥ ∨ e = ⊤ := by
    intro e h; unfold isFinite at h; tauto
  -- a lower bound is a finite number or `⊥`
  have lower : ∀ r : ℝ, (r : EReal) ≤ bMin L dt q dq → bMin L dt q dq ≠ ⊤ → r ≤ v := by
    intro r h1 h2
    rcases h.1 with (h3 | h3) | h3
    · rw [h3] at h1; exact absurd (le_bot_iff.1 h1) (EReal.coe_ne_bot r)
    · exact absurd h3 h2
    · exact_mod_cast h1.trans h3
  have upper : ∀ r : ℝ, bMax L dt q dq ≤ (r : EReal) → bMax L dt q dq ≠ ⊥ → v ≤ r := by
    intro r h1 h2
    rcases h.2 with (h3 | h3) | h3
    · exact absurd h3 h2
    · rw [h3] at h1; exact absurd (top_le_iff.1 h1) (EReal.coe_ne_top r)
    · exact_mod_cast h3.trans h1
  have nt : bMin L dt q dq ≠ ⊤ := by
    unfold bMin
    split_ifs <;> simp [max_eq_top, EReal.coe_ne_top, -EReal.coe_sub, -EReal.coe_mul]
  have nb : bMax L dt q dq ≠ ⊥ := by
    unfold bMax
    split_ifs <;> simp [min_eq_bot, EReal.coe_ne_bot, -EReal.coe_sub, -EReal.coe_mul]
  refine ⟨⟨?_, ?_⟩, ⟨?_, ?_⟩⟩
  · by_cases hf : isFinite L.dqMin
    · right
      have h1 : ((L.dqMin.toReal - dq : ℝ) : EReal) ≤ bMin L dt q dq := by
        unfold bMin
        rw [if_pos hf]
        split_ifs
        · exact le_max_of_le_left (le_max_left _ _)
        · exact le_max_left _ _
        · exact le_max_left _ _
        · exact le_rfl
      have := lower _ h1 nt
      rw [← coe hf]
      exact_mod_cast (by linarith)
    · exact Or.inl (inf hf)
  · by_cases hf : isFinite L.dqMax
    · right
      have h1 : bMax L dt q dq ≤ ((L.dqMax.toReal - dq : ℝ) : EReal) := by
        unfold bMax
        rw [if_pos hf]
        split_ifs
        · exact min_le_of_left_le (min_le_left _ _)
        · exact min_le_left _ _
        · exact min_le_left _ _
        · exact le_rfl
      have := upper _ h1 nb
      rw [← coe hf]
      exact_mod_cast (by linarith)
    · exact Or.inl (inf hf)
  · by_cases hf : isFinite L.ddqMin
    · right
      have h1 : ((L.ddqMin.toReal * dt : ℝ) : EReal) ≤ bMin L dt q dq := by
        unfold bMin
        simp only [if_pos hf]
        exact le_max_right _ _
      have := lower _ h1 nt
      rw [← coe hf]
      exact_mod_cast (le_div_iff₀ hdt).2 this
    · exact Or.inl (inf hf)
  · by_cases hf : isFinite L.ddqMax
    · right
      have h1 : bMax L dt q dq ≤ ((L.ddqMax.toReal * dt : ℝ) : EReal) := by
        unfold bMax
        simp only [if_pos hf]
        split_ifs
        all_goals first
          | exact min_le_right _ _
          | exact min_le_of_left_le (min_le_right _ _)
      have := upper _ h1 nb
      rw [← coe hf]
      exact_mod_cast (div_le_iff₀ hdt).2 this
    · exact Or.inl (inf hf)

/-- **C60** for every joint that gets the null-space term (the first `n_x`) or needs none: for every
feasible solution, whatever Jacobian, pseudo-inverse, state and limits, its velocity is within the
velocity limits and its change over `dt` within the acceleration limits.  Missing: chains with fewer
joints than `n_x = 6`, where the code writes out of bounds (`C60_violates_memory`), and joints after
the sixth (`C60_violates_seven`). -/
theorem C60_partial (nX nQ : Nat) (J Js : Nat → Nat → ℝ) (lim : Nat → Lim) (dt : ℝ)
    (dxR qA dqA dqR x : Nat → ℝ) (hdt : 0 < dt) (hn : nX ≤ nQ)
    (hx : Feasible nX nQ J Js lim dt dxR qA dqA dqR x) :
    ∃ dq, dx2dq nX nQ J Js dt dqA dqR x = some (some dq) ∧
      ∀ i, i < nQ → (i < nX ∨ x nX * conA nX nQ J Js dt dqA dqR i nX = 0) →
        Within (lim i).dqMin (lim i).dqMax (dq i) ∧
        Within (lim i).ddqMin (lim i).ddqMax ((dq i - dqA i) / dt) := by
  refine ⟨_, by rw [dx2dq, if_neg (by linarith), if_neg (by omega)], fun i hi hc => ?_⟩
  have h := bounds_sound (lim i) dt (qA i) (dqA i) _ hdt (hx.2 i hi)
  have he : (∑ j ∈ Finset.range nX, conA nX nQ J Js dt dqA dqR i j * x j) +
      (if i < nX then x nX * conA nX nQ J Js dt dqA dqR i nX else 0) =
      rowVal (nX + 1) (conA nX nQ J Js dt dqA dqR i) x := by
    rw [rowVal, Finset.sum_range_succ]
    congr 1
    split_ifs with h1
    · ring
    · rcases hc with hc | hc
      · exact absurd hc h1
      · rw [← hc]; ring
  rw [add_assoc, he]
  refine ⟨h.1, ?_⟩
  rw [add_sub_cancel_left]
  exact h.2

/-- **C60** holds as stated for chains of exactly `n_x` joints. -/
theorem C60_square (nX : Nat) (J Js : Nat → Nat → ℝ) (lim : Nat → Lim) (dt : ℝ)
    (dxR qA dqA dqR x : Nat → ℝ) (hdt : 0 < dt)
    (hx : Feasible nX nX J Js lim dt dxR qA dqA dqR x) :
    ∃ dq, dx2dq nX nX J Js dt dqA dqR x = some (some dq) ∧
      ∀ i, i < nX → Within (lim i).dqMin (lim i).dqMax (dq i) ∧
        Within (lim i).ddqMin (lim i).ddqMax ((dq i - dqA i) / dt) := by
  obtain ⟨dq, h1, h2⟩ := C60_partial nX nX J Js lim dt dxR qA dqA dqR x hdt le_rfl hx
  exact ⟨dq, h1, fun i hi => h2 i hi (Or.inl hi)⟩

/-- **C60 fails** for every chain with fewer than six joints: `cblas_daxpy` is given `n_x` as the
number of joints and leaves its arrays. -/
theorem C60_violates_memory (nQ : Nat) (hn : nQ < 6) (J Js : Nat → Nat → ℝ) (dt : ℝ)
    (dqA dqR x : Nat → ℝ) (hdt : 0 < dt) : dx2dq 6 nQ J Js dt dqA dqR x = some none := by
  rw [dx2dq, if_neg (by linarith), if_pos hn]

/-- No limits. -/
noncomputable def noLim : Lim := ⟨⊥, ⊤, ⊥, ⊤, ⊥, ⊤⟩

/-- Six independent joints and a seventh that moves the tip as the sixth does. -/
def J7 (i k : Nat) : ℝ := if i = k ∨ (i = 5 ∧ k = 6) then 1 else 0

/-- Its pseudo-inverse. -/
noncomputable def Js7 (i j : Nat) : ℝ :=
  if i < 5 ∧ i = j then 1 else if (i = 5 ∨ i = 6) ∧ j = 5 then 1 / 2 else 0

/-- `Js7` is the pseudo-inverse of `J7`: `J Js = I` and `Js J` is symmetric. -/
theorem Js7_pinv : (∀ i j : Fin 6, (∑ k ∈ Finset.range 7, J7 i k * Js7 k j) = if i = j then 1 else 0) ∧
    ∀ i k : Fin 7, (∑ j ∈ Finset.range 6, Js7 i j * J7 j k) =
      ∑ j ∈ Finset.range 6, Js7 k j * J7 j i := by
  constructor
  · intro i j
    fin_cases i <;> fin_cases j <;> simp [Finset.sum_range_succ, J7, Js7] <;> norm_num
  · intro i j
    fin_cases i <;> fin_cases j <;> simp [Finset.sum_range_succ, J7, Js7]

/-- The limit of the seventh joint's velocity is 1/2. -/
noncomputable def lim7 (i : Nat) : Lim :=
  if i = 6 then ⟨⊥, ⊤, ⊥, ((1 / 2 : ℝ) : EReal), ⊥, ⊤⟩ else noLim

/-- **C60 fails** for seven joints: the null-space term is not added to the seventh.  Here it moves
at velocity 1 with the limit 1/2, the solution of the linear program stops it, and the result moves
it at velocity 1. -/
theorem C60_violates_seven :
    let dqA : Nat → ℝ := fun i => if i = 5 then -1 else if i = 6 then 1 else 0
    let x : Nat → ℝ := fun i => if i = 6 then 1 else 0
    Feasible 6 7 J7 Js7 lim7 1 (fun _ => 0) (fun _ => 0) dqA (fun _ => 0) x ∧
    ∃ dq, dx2dq 6 7 J7 Js7 1 dqA (fun _ => 0) x = some (some dq) ∧
      ¬ Within (lim7 6).dqMin (lim7 6).dqMax (dq 6) := by
  intro dqA x
  have hfin : isFinite ((1 / 2 : ℝ) : EReal) := ⟨EReal.coe_ne_bot _, EReal.coe_ne_top _⟩
  have hbot : ¬ isFinite ⊥ := fun h => h.1 rfl
  have htop : ¬ isFinite ⊤ := fun h => h.2 rfl
  refine ⟨⟨fun j hj => ?_, fun i hi => ?_⟩, _, by rw [dx2dq, if_neg (by norm_num), if_neg (by norm_num)], ?_⟩
  · have hc : ∀ i, i < 6 → objC 6 7 J7 1 (fun _ => 0) dqA i = 0 := by
      intro i hi
      interval_cases i <;> simp [objC, Finset.sum_range_succ, J7, dqA]
    by_cases h6 : j < 6
    · simp [xBnd, h6, hc j h6, x, show j ≠ 6 by omega]
    · have : j = 6 := by omega
      subst this
      simp [xBnd, x]
  · by_cases h6 : i = 6
    · subst h6
      have hr : rowVal (6 + 1) (conA 6 7 J7 Js7 1 dqA (fun _ => 0) 6) x = -1 := by
        simp [rowVal, Finset.sum_range_succ, conA, x, projN, J7, Js7, dqA]
        norm_num
      have h1 : bMin (lim7 6) 1 0 (dqA 6) = ⊥ := by simp [bMin, lim7, hbot, htop]
      have h2 : bMax (lim7 6) 1 0 (dqA 6) = ((1 / 2 - 1 : ℝ) : EReal) := by
        have e : lim7 6 = ⟨⊥, ⊤, ⊥, ((1 / 2 : ℝ) : EReal), ⊥, ⊤⟩ := if_pos rfl
        have e2 : dqA 6 = 1 := by simp [dqA]
        rw [e, e2]
        simp only [bMax, if_neg htop, if_pos hfin, hbot, false_and, if_false, EReal.toReal_coe]
      rw [hr, h1, h2]
      refine ⟨Or.inl (Or.inl rfl), Or.inr ?_⟩
      exact_mod_cast (by norm_num : (-1 : ℝ) ≤ 1 / 2 - 1)
    · have h1 : bMin (lim7 i) 1 0 (dqA i) = ⊥ := by simp [bMin, lim7, noLim, h6, hbot, htop]
      have h2 : bMax (lim7 i) 1 0 (dqA i) = ⊤ := by simp [bMax, lim7, noLim, h6, hbot, htop]
      rw [h1, h2]
      exact ⟨Or.inl (Or.inl rfl), Or.inl (Or.inr rfl)⟩
  · have hv : (dqA 6 + (∑ j ∈ Finset.range 6, conA 6 7 J7 Js7 1 dqA (fun _ => 0) 6 j * x j) +
        if 6 < 6 then x 6 * conA 6 7 J7 Js7 1 dqA (fun _ => 0) 6 6 else 0) = 1 := by
      simp [x, dqA]
    rw [hv]
    simp only [lim7, if_true]
    rintro ⟨-, h⟩
    rcases h with (h | h) | h
    · exact hfin.1 h
    · exact hfin.2 h
    · have : (1 : ℝ) ≤ 1 / 2 := by exact_mod_cast h
      norm_num at this

/-- A feasible state of a six-joint chain with finite limits. -/
example : Feasible 6 6 (fun i k => if i = k then 1 else 0) (fun i k => if i = k then 1 else 0)
    (fun _ => ⟨⊥, ⊤, ((-1 : ℝ) : EReal), ((1 : ℝ) : EReal), ⊥, ⊤⟩) 1 (fun _ => 1 / 2) (fun _ => 0)
    (fun _ => 0) (fun _ => 0) (fun i => if i < 6 then 1 / 2 else 0) := by
  have hfin : ∀ r : ℝ, isFinite (r : EReal) := fun r => ⟨EReal.coe_ne_bot _, EReal.coe_ne_top _⟩
  have hbot : ¬ isFinite ⊥ := fun h => h.1 rfl
  have htop : ¬ isFinite ⊤ := fun h => h.2 rfl
  refine ⟨fun j hj => ?_, fun i hi => ?_⟩
  · by_cases h6 : j < 6
    · simp [xBnd, objC, h6]
    · simp [xBnd, h6]
  · have hr : rowVal (6 + 1) (conA 6 6 (fun i k => if i = k then 1 else 0)
        (fun i k => if i = k then 1 else 0) 1 (fun _ => 0) (fun _ => 0) i)
        (fun i => if i < 6 then 1 / 2 else 0) = 1 / 2 := by
      interval_cases i <;> simp [rowVal, Finset.sum_range_succ, conA]
    rw [hr]
    have h1 : ∀ q : ℝ, bMin ⟨⊥, ⊤, ((-1 : ℝ) : EReal), ((1 : ℝ) : EReal), ⊥, ⊤⟩ 1 q 0 =
        ((-1 : ℝ) : EReal) := by
      intro q
      simp only [bMin, if_pos (hfin _), if_neg hbot, htop, false_and, if_false, EReal.toReal_coe]
      norm_num
    have h2 : ∀ q : ℝ, bMax ⟨⊥, ⊤, ((-1 : ℝ) : EReal), ((1 : ℝ) : EReal), ⊥, ⊤⟩ 1 q 0 =
        ((1 : ℝ) : EReal) := by
      intro q
      simp only [bMax, if_pos (hfin _), if_neg htop, hbot, false_and, if_false, EReal.toReal_coe]
      norm_num
    rw [h1, h2]
    refine ⟨Or.inr ?_, Or.inr ?_⟩
    · exact_mod_cast (by norm_num : (-1 : ℝ) ≤ 1 / 2)
    · exact_mod_cast (by norm_num : (1 / 2 : ℝ) ≤ 1)

end Verif.Lc3
