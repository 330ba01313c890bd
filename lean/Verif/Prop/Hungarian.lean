import Verif.Proof.Hungarian
import Mathlib.Logic.Equiv.Fintype
import Mathlib.Data.Fin.VecNotation
import Mathlib.Algebra.BigOperators.Fin
import Mathlib.Algebra.Order.Ring.Int

/-!
# C38: the assignment solver

A complete matching of an `m x n` cost matrix pairs every row with its own column when `m ≤ n` and every
column with its own row when `n ≤ m`.
-/

namespace Verif.Hungarian

variable {K : Type} [CommRing K] [LinearOrder K] [IsStrictOrderedRing K]

/-- `P i j`: row `i` is paired with column `j`. -/
structure Complete {m n : Nat} (P : Fin m → Fin n → Prop) : Prop where
  col : ∀ i j k, P i j → P i k → j = k
  row : ∀ i k j, P i j → P k j → i = k
  rows : m ≤ n → ∀ i, ∃ j, P i j
  cols : n ≤ m → ∀ j, ∃ i, P i j

open Classical in
/-- the total cost of a matching. -/
noncomputable def cost {m n : Nat} (A : Nat → Nat → K) (P : Fin m → Fin n → Prop) : K :=
  ∑ i, ∑ j, if P i j then A i j else 0

/-- C38 for square matrices: whenever the search ends, the assignments are a permutation and its inverse,
and no permutation is cheaper. This holds for costs of any sign. What is missing is termination, see
`C38_violates_termination`. -/
theorem C38_opt_partial {n : Nat} (fuel : Nat) (C : Fin n → Fin n → K) (ra ca : Fin n → Int)
    (r : (Fin n → Int) × (Fin n → Int)) (h : opt fuel C ra ca = some r) :
    ∃ σ : Equiv.Perm (Fin n), (∀ i, r.1 i = (σ i : Nat)) ∧ (∀ j, r.2 j = (σ.symm j : Nat)) ∧
      ∀ τ : Equiv.Perm (Fin n), ∑ i, C i (σ i) ≤ ∑ i, C i (τ i) := by
  unfold opt at h
  rw [Option.map_eq_some_iff] at h
  obtain ⟨s, hs, rfl⟩ := h
  obtain ⟨hg, h7⟩ := good_loop C (matMax C) fuel (init C) s (good_init C) hs
  obtain ⟨σ, h1, h2⟩ := good_optimal C s hg h7
  obtain ⟨h3, h4⟩ := assign_spec s.mask ra ca σ h1
  exact ⟨σ, h3, h4, h2⟩

omit [LinearOrder K] [IsStrictOrderedRing K] in
theorem pad_sum (m n : Nat) (A : Nat → Nat → K) (τ : Equiv.Perm (Fin (max m n)))
    (P : Fin m → Fin n → Prop) (h : ∀ i j, P i j ↔ (τ ⟨i, by omega⟩).val = j.val) :
    ∑ x, pad m n A x (τ x) = cost A P := by
  classical
  have e : ∀ x y : Fin (max m n), pad m n A x y =
      ∑ i : Fin m, ∑ j : Fin n, if i.val = x.val ∧ j.val = y.val then A i j else 0 := by
    intro x y
    unfold pad
    by_cases hx : x.val < m ∧ y.val < n
    · rw [if_pos hx, Finset.sum_eq_single ⟨x.val, hx.1⟩, Finset.sum_eq_single ⟨y.val, hx.2⟩]
      · simp
      · intro b _ hb
        rw [if_neg]
        rintro ⟨_, h⟩
        exact hb (Fin.ext h)
      · simp
      · intro b _ hb
        apply Finset.sum_eq_zero
        intro j _
        rw [if_neg]
        rintro ⟨h, _⟩
        exact hb (Fin.ext h)
      · simp
    · rw [if_neg hx]
      symm
      apply Finset.sum_eq_zero
      intro i _
      apply Finset.sum_eq_zero
      intro j _
      rw [if_neg]
      rintro ⟨h1, h2⟩
      exact hx ⟨h1 ▸ i.2, h2 ▸ j.2⟩
  simp only [e, cost]
  rw [Finset.sum_comm]
  apply Finset.sum_congr rfl
  intro i _
  rw [Finset.sum_comm]
  apply Finset.sum_congr rfl
  intro j _
  have hi : i.val < max m n := by have := i.2; omega
  rw [Finset.sum_eq_single ⟨i.val, hi⟩]
  · simp only [true_and, h]
    by_cases hj : (τ ⟨i.val, hi⟩).val = j.val
    · rw [if_pos hj, if_pos hj.symm]
    · rw [if_neg hj, if_neg (fun h => hj h.symm)]
  · intro b _ hb
    rw [if_neg]
    rintro ⟨h1, _⟩
    exact hb (Fin.ext h1.symm)
  · simp

omit [CommRing K] [LinearOrder K] [IsStrictOrderedRing K] in
theorem extend {m n : Nat} (P : Fin m → Fin n → Prop) (hP : Complete P) :
    ∃ τ : Equiv.Perm (Fin (max m n)), ∀ i j, P i j ↔ (τ ⟨i, by omega⟩).val = j.val := by
  classical
  let Q : Fin (max m n) → Prop := fun x => ∃ h : x.val < m, ∃ j, P ⟨x.val, h⟩ j
  let f : Fin (max m n) → Fin (max m n) := fun x =>
    if h : Q x then ⟨(h.choose_spec.choose).val, by have := h.choose_spec.choose.2; omega⟩ else x
  have hf : ∀ x (hx : x.val < m) j, P ⟨x.val, hx⟩ j → (f x).val = j.val := by
    intro x hx j hj
    have hQ : Q x := ⟨hx, j, hj⟩
    have : f x = ⟨(hQ.choose_spec.choose).val, by have := hQ.choose_spec.choose.2; omega⟩ := dif_pos hQ
    rw [this]
    exact congrArg Fin.val (hP.col _ _ _ hQ.choose_spec.choose_spec hj)
  obtain ⟨g, hg⟩ := Finset.exists_equiv_extend_of_card_eq (α := Fin (max m n)) (β := Fin (max m n))
    (t := Finset.univ) (by simp) (s := Finset.univ.filter Q) (f := f) (Finset.subset_univ _) (by
      intro x hx y hy hxy
      simp only [Finset.coe_filter, Finset.mem_univ, true_and, Set.mem_ofPred_eq] at hx hy
      obtain ⟨hx, j, hj⟩ := hx
      obtain ⟨hy, k, hk⟩ := hy
      have h1 := hf x hx j hj
      have h2 := hf y hy k hk
      rw [hxy, h2] at h1
      have : k = j := Fin.ext h1
      subst this
      have := hP.row _ _ _ hj hk
      exact Fin.ext (by simpa using congrArg Fin.val this))
  let τ : Equiv.Perm (Fin (max m n)) := g.trans (Equiv.subtypeUnivEquiv (by simp))
  have hτ : ∀ i j, P i j → (τ ⟨i, by omega⟩).val = j.val := by
    intro i j hij
    have hi : i.val < max m n := by have := i.2; omega
    have hq : (⟨i.val, hi⟩ : Fin (max m n)) ∈ Finset.univ.filter Q := by
      simp only [Finset.mem_filter, Finset.mem_univ, true_and]
      exact ⟨i.2, j, hij⟩
    have h1 := hg _ hq
    have h2 : τ ⟨i.val, hi⟩ = f ⟨i.val, hi⟩ := h1
    rw [h2]
    exact hf _ i.2 j hij
  refine ⟨τ, fun i j => ⟨hτ i j, ?_⟩⟩
  intro hij
  rcases Nat.le_total m n with hmn | hmn
  · obtain ⟨k, hk⟩ := hP.rows hmn i
    have := hτ i k hk
    have : k = j := Fin.ext (by omega)
    exact this ▸ hk
  · obtain ⟨k, hk⟩ := hP.cols hmn j
    have h1 := hτ k j hk
    have h2 := τ.injective (Fin.ext (h1.trans hij.symm))
    have : k = i := Fin.ext (by simpa using congrArg Fin.val h2)
    exact this ▸ hk

/-- C38: whenever `aa_la_d_assign_hungarian` returns, entries are −1 or an index, the row and the column
assignment describe the same complete matching, and no complete matching is cheaper. Missing:
termination. -/
theorem C38_assign_partial (fuel m n : Nat) (A : Nat → Nat → K) (ra ca : Fin (max m n) → Int)
    (r : Fin m → Int) (c : Fin n → Int) (h : assignHungarian fuel m n A ra ca = some (r, c)) :
    (∀ i, r i = -1 ∨ ∃ j : Fin n, r i = (j : Nat)) ∧ (∀ j, c j = -1 ∨ ∃ i : Fin m, c j = (i : Nat)) ∧
    (∀ (i : Fin m) (j : Fin n), r i = (j : Nat) ↔ c j = (i : Nat)) ∧
    Complete (fun (i : Fin m) (j : Fin n) => r i = (j : Nat)) ∧
    ∀ P : Fin m → Fin n → Prop, Complete P → cost A (fun (i : Fin m) (j : Fin n) => r i = (j : Nat)) ≤ cost A P := by
  unfold assignHungarian at h
  rw [Option.map_eq_some_iff] at h
  obtain ⟨q, hq, hrc⟩ := h
  obtain ⟨σ, h1, h2, h3⟩ := C38_opt_partial fuel _ ra ca q hq
  simp only [Prod.mk.injEq] at hrc
  obtain ⟨rfl, rfl⟩ := hrc
  have hr : ∀ (i : Fin m) (j : Fin n), (if m > n ∧ (n : Int) ≤ q.1 ⟨i, by omega⟩ then -1 else q.1 ⟨i, by omega⟩)
      = ((j : Nat) : Int) ↔ (σ ⟨i, by omega⟩).val = j.val := by
    intro i j
    rw [h1]
    have := j.2
    split <;> omega
  have hc : ∀ (i : Fin m) (j : Fin n), (if m < n ∧ (m : Int) ≤ q.2 ⟨j, by omega⟩ then -1 else q.2 ⟨j, by omega⟩)
      = ((i : Nat) : Int) ↔ (σ ⟨i, by omega⟩).val = j.val := by
    intro i j
    have hi : i.val < max m n := by have := i.2; omega
    have hj : j.val < max m n := by have := j.2; omega
    rw [h2]
    have e : (σ.symm ⟨j.val, hj⟩).val = i.val ↔ (σ ⟨i.val, hi⟩).val = j.val := by
      constructor
      · intro h
        have : σ.symm ⟨j.val, hj⟩ = ⟨i.val, hi⟩ := Fin.ext h
        rw [← this]; simp
      · intro h
        have : σ ⟨i.val, hi⟩ = ⟨j.val, hj⟩ := Fin.ext h
        rw [← this]; simp
    rw [← e]
    have := i.2
    split <;> omega
  refine ⟨?_, ?_, ?_, ?_, ?_⟩
  · intro i
    simp only
    have hi : i.val < max m n := by have := i.2; omega
    have h4 := (σ ⟨i.val, hi⟩).2
    rw [h1]
    by_cases hn : (σ ⟨i.val, hi⟩).val < n
    · exact Or.inr ⟨⟨_, hn⟩, by rw [if_neg (by omega)]⟩
    · left; rw [if_pos (by omega)]
  · intro j
    simp only
    have hj : j.val < max m n := by have := j.2; omega
    have h4 := (σ.symm ⟨j.val, hj⟩).2
    rw [h2]
    by_cases hn : (σ.symm ⟨j.val, hj⟩).val < m
    · exact Or.inr ⟨⟨_, hn⟩, by rw [if_neg (by omega)]⟩
    · left; rw [if_pos (by omega)]
  · intro i j
    exact (hr i j).trans (hc i j).symm
  · refine ⟨?_, ?_, ?_, ?_⟩
    · intro i j k hj hk
      have h4 := (hr i j).1 hj
      have h5 := (hr i k).1 hk
      exact Fin.ext (by omega)
    · intro i k j hi hk
      have h4 := (hr i j).1 hi
      have h5 := (hr k j).1 hk
      have := σ.injective (Fin.ext (h4.trans h5.symm))
      exact Fin.ext (by simpa using congrArg Fin.val this)
    · intro hmn i
      have hi : i.val < max m n := by have := i.2; omega
      have h4 := (σ ⟨i.val, hi⟩).2
      exact ⟨⟨(σ ⟨i.val, hi⟩).val, by omega⟩, (hr i _).2 rfl⟩
    · intro hmn j
      have hj : j.val < max m n := by have := j.2; omega
      have h4 := (σ.symm ⟨j.val, hj⟩).2
      refine ⟨⟨(σ.symm ⟨j.val, hj⟩).val, by omega⟩, (hr _ _).2 ?_⟩
      simp
  · intro P hP
    obtain ⟨τ, hτ⟩ := extend P hP
    rw [← pad_sum m n A τ P hτ, ← pad_sum m n A σ _ hr]
    exact h3 τ

/-- C38: a matching is cheapest for the converted costs exactly when it is dearest for the original ones. -/
theorem C38_max2min {m n : Nat} (A : Fin m → Fin n → K) (P Q : Fin m → Fin n → Prop) (hP : Complete P)
    (hQ : Complete Q) (B : Nat → Nat → K) (D : Nat → Nat → K) (hB : ∀ i j, B (i : Fin m) (j : Fin n) = A i j)
    (hD : ∀ i j, D (i : Fin m) (j : Fin n) = max2min A i j) :
    (∀ i j, 0 ≤ max2min A i j) ∧ (cost D P ≤ cost D Q ↔ cost B Q ≤ cost B P) := by
  classical
  refine ⟨fun i j => by unfold max2min; have := matMax_ge A i j; linarith, ?_⟩
  have count : ∀ R : Fin m → Fin n → Prop, Complete R →
      cost D R = (min m n : Nat) * matMax A - cost B R := by
    intro R hR
    have e : cost D R = ∑ i, ∑ j, (if R i j then matMax A else 0) - cost B R := by
      unfold cost
      rw [← Finset.sum_sub_distrib]
      apply Finset.sum_congr rfl
      intro i _
      rw [← Finset.sum_sub_distrib]
      apply Finset.sum_congr rfl
      intro j _
      rw [hD, hB, max2min]
      split <;> simp
    rw [e]
    congr 1
    rcases Nat.le_total m n with h | h
    · have : ∀ i, ∑ j, (if R i j then matMax A else 0) = matMax A := by
        intro i
        obtain ⟨j, hj⟩ := hR.rows h i
        rw [Finset.sum_eq_single j]
        · rw [if_pos hj]
        · intro b _ hb
          rw [if_neg (fun hb' => hb (hR.col _ _ _ hb' hj))]
        · simp
      simp [this, Nat.min_eq_left h]
    · rw [Finset.sum_comm]
      have : ∀ j, ∑ i, (if R i j then matMax A else 0) = matMax A := by
        intro j
        obtain ⟨i, hi⟩ := hR.cols h j
        rw [Finset.sum_eq_single i]
        · rw [if_pos hi]
        · intro b _ hb
          rw [if_neg (fun hb' => hb (hR.row _ _ _ hb' hi))]
        · simp
      simp [this, Nat.min_eq_right h]
  rw [count P hP, count Q hQ]
  constructor <;> intro h <;> linarith

omit [IsStrictOrderedRing K] in
theorem loop_iter {n : Nat} (mx : K) (k : Nat) (s : St K n)
    (h : ∀ i < k, ((next mx)^[i] s).step < 7) (f : Nat) :
    loop mx f s = if f < k then none else loop mx (f - k) ((next mx)^[k] s) := by
  induction k generalizing s f with
  | zero => simp
  | succ k ih =>
    have h0 : ¬ 7 ≤ s.step := by have := h 0 (by omega); simp only [Function.iterate_zero, id] at this; omega
    cases f with
    | zero => rw [loop, if_neg h0, if_pos (by omega)]
    | succ f =>
      rw [loop, if_neg h0]
      rw [ih (next mx s) (fun i hi => by
        have := h (i + 1) (by omega); rwa [Function.iterate_succ_apply] at this) f]
      rw [Function.iterate_succ_apply]
      by_cases hf : f < k
      · rw [if_pos hf, if_pos (by omega)]
      · rw [if_neg hf, if_neg (by omega)]
        congr 1
        omega

/-- C38: when no cost is positive, the search never ends once it has to create a zero (step 6). -/
theorem C38_violates_nonpositive {n : Nat} (C : Fin n → Fin n → K) (ra ca : Fin n → Int) (hmx : matMax C ≤ 0)
    (k : Nat) (hk : ∀ i < k, ((next (matMax C))^[i] (init C)).step < 7)
    (h6 : ((next (matMax C))^[k] (init C)).step = 6) (fuel : Nat) :
    opt fuel C ra ca = none := by
  have hg : ∀ i ≤ k, Good C ((next (matMax C))^[i] (init C)) ∨ Stuck (matMax C) ((next (matMax C))^[i] (init C)) := by
    intro i
    induction i with
    | zero => intro _; exact Or.inl (good_init C)
    | succ i ih =>
      intro hi
      rw [Function.iterate_succ_apply']
      rcases ih (by omega) with ih | ih
      · exact good_next C _ _ ih (not_le.2 (hk i (by omega)))
      · exact Or.inr (stuck_next _ _ ih)
  have hst : Stuck (matMax C) ((next (matMax C))^[k] (init C)) := by
    rcases hg k (le_refl k) with hg | hg
    · exact ⟨hmx, Or.inr h6, hg.at6 h6⟩
    · exact hg
  unfold opt
  rw [loop_iter _ k _ hk]
  split
  · rfl
  · rw [stuck_loop _ _ _ hst]; rfl

/-- Costs between −5 and 0 whose search never ends. -/
def negative : Fin 3 → Fin 3 → Int := ![![-2, -2, -1], ![-4, -5, -2], ![0, 0, -2]]

/-- C38: termination fails for nonpositive costs. -/
theorem C38_violates_negative (fuel : Nat) (ra ca : Fin 3 → Int) : opt fuel negative ra ca = none :=
  C38_violates_nonpositive negative ra ca (by decide) 3 (by decide) (by decide) fuel

/-- Costs between 0 and 3 whose search never ends. -/
def nonneg : Fin 4 → Fin 4 → Int := ![![1, 3, 0, 0], ![2, 1, 2, 3], ![1, 0, 3, 3], ![0, 1, 0, 2]]

/-- The states of the search for `nonneg`: the turns 13 and 14 repeat. -/
def state : Nat → St Int 4
  | 0 => ⟨![![1, 3, 0, 0], ![1, 0, 1, 2], ![1, 0, 3, 3], ![0, 1, 0, 2]], ![![0, 0, 1, 0], ![0, 1, 0, 0], ![0, 0, 0, 0], ![1, 0, 0, 0]], ![false, false, false, false], ![false, false, false, false], none, 3⟩
  | 1 => ⟨![![1, 3, 0, 0], ![1, 0, 1, 2], ![1, 0, 3, 3], ![0, 1, 0, 2]], ![![0, 0, 1, 0], ![0, 1, 0, 0], ![0, 0, 0, 0], ![1, 0, 0, 0]], ![false, false, false, false], ![true, true, true, false], none, 4⟩
  | 2 => ⟨![![1, 3, 0, 0], ![1, 0, 1, 2], ![1, 0, 3, 3], ![0, 1, 0, 2]], ![![0, 0, 1, 2], ![0, 1, 0, 0], ![0, 0, 0, 0], ![1, 0, 0, 0]], ![true, false, false, false], ![true, true, false, false], none, 4⟩
  | 3 => ⟨![![1, 3, 0, 0], ![1, 0, 1, 2], ![1, 0, 3, 3], ![0, 1, 0, 2]], ![![0, 0, 1, 2], ![0, 1, 0, 0], ![0, 0, 0, 0], ![1, 0, 2, 0]], ![true, false, false, true], ![false, true, false, false], none, 4⟩
  | 4 => ⟨![![1, 3, 0, 0], ![1, 0, 1, 2], ![1, 0, 3, 3], ![0, 1, 0, 2]], ![![0, 0, 1, 2], ![0, 1, 0, 0], ![0, 0, 0, 0], ![1, 0, 2, 0]], ![true, false, false, true], ![false, true, false, false], none, 6⟩
  | 5 => ⟨![![1, 4, 0, 0], ![0, 0, 0, 1], ![0, 0, 2, 2], ![0, 2, 0, 2]], ![![0, 0, 1, 2], ![0, 1, 0, 0], ![0, 0, 0, 0], ![1, 0, 2, 0]], ![true, false, false, true], ![false, true, false, false], none, 4⟩
  | 6 => ⟨![![1, 4, 0, 0], ![0, 0, 0, 1], ![0, 0, 2, 2], ![0, 2, 0, 2]], ![![0, 0, 1, 2], ![2, 1, 0, 0], ![0, 0, 0, 0], ![1, 0, 2, 0]], ![true, true, false, true], ![false, false, false, false], none, 4⟩
  | 7 => ⟨![![1, 4, 0, 0], ![0, 0, 0, 1], ![0, 0, 2, 2], ![0, 2, 0, 2]], ![![0, 0, 1, 2], ![2, 1, 0, 0], ![2, 0, 0, 0], ![1, 0, 2, 0]], ![true, true, false, true], ![false, false, false, false], some (2, 0), 5⟩
  | 8 => ⟨![![1, 4, 0, 0], ![0, 0, 0, 1], ![0, 0, 2, 2], ![0, 2, 0, 2]], ![![0, 0, 1, 0], ![0, 1, 0, 0], ![1, 0, 0, 0], ![0, 0, 1, 0]], ![false, false, false, false], ![false, false, false, false], some (2, 0), 3⟩
  | 9 => ⟨![![1, 4, 0, 0], ![0, 0, 0, 1], ![0, 0, 2, 2], ![0, 2, 0, 2]], ![![0, 0, 1, 0], ![0, 1, 0, 0], ![1, 0, 0, 0], ![0, 0, 1, 0]], ![false, false, false, false], ![true, true, true, false], some (2, 0), 4⟩
  | 10 => ⟨![![1, 4, 0, 0], ![0, 0, 0, 1], ![0, 0, 2, 2], ![0, 2, 0, 2]], ![![0, 0, 1, 2], ![0, 1, 0, 0], ![1, 0, 0, 0], ![0, 0, 1, 0]], ![true, false, false, false], ![true, true, false, false], some (2, 0), 4⟩
  | 11 => ⟨![![1, 4, 0, 0], ![0, 0, 0, 1], ![0, 0, 2, 2], ![0, 2, 0, 2]], ![![0, 0, 1, 2], ![0, 1, 2, 0], ![1, 0, 0, 0], ![0, 0, 1, 0]], ![true, true, false, false], ![true, false, false, false], some (2, 0), 4⟩
  | 12 => ⟨![![1, 4, 0, 0], ![0, 0, 0, 1], ![0, 0, 2, 2], ![0, 2, 0, 2]], ![![0, 0, 1, 2], ![0, 1, 2, 0], ![1, 2, 0, 0], ![0, 0, 1, 0]], ![true, true, true, false], ![false, false, false, false], some (2, 0), 4⟩
  | 13 => ⟨![![1, 4, 0, 0], ![0, 0, 0, 1], ![0, 0, 2, 2], ![0, 2, 0, 2]], ![![0, 0, 1, 2], ![0, 1, 2, 0], ![1, 2, 0, 0], ![2, 0, 1, 0]], ![true, true, true, true], ![false, false, false, false], some (2, 0), 4⟩
  | _ => ⟨![![1, 4, 0, 0], ![0, 0, 0, 1], ![0, 0, 2, 2], ![0, 2, 0, 2]], ![![0, 0, 1, 2], ![0, 1, 2, 0], ![1, 2, 0, 0], ![2, 0, 1, 0]], ![true, true, true, true], ![false, false, false, false], some (2, 0), 6⟩

def same (s t : St Int 4) : Bool :=
  ((cells 4).all fun p => s.A p.1 p.2 == t.A p.1 p.2 && s.mask p.1 p.2 == t.mask p.1 p.2) &&
  ((List.finRange 4).all fun i => s.rc i == t.rc i && s.cc i == t.cc i) && s.z == t.z && s.step == t.step

theorem same_eq (s t : St Int 4) (h : same s t = true) : s = t := by
  obtain ⟨A, M, r, c, z, st⟩ := s
  obtain ⟨A', M', r', c', z', st'⟩ := t
  simp only [same, Bool.and_eq_true, List.all_eq_true, beq_iff_eq] at h
  obtain ⟨⟨⟨h1, h2⟩, rfl⟩, rfl⟩ := h
  have e1 : A = A' := by funext i j; exact (h1 (i, j) (mem_cells _)).1
  have e2 : M = M' := by funext i j; exact (h1 (i, j) (mem_cells _)).2
  have e3 : r = r' := by funext i; exact (h2 i (List.mem_finRange _)).1
  have e4 : c = c' := by funext i; exact (h2 i (List.mem_finRange _)).2
  rw [e1, e2, e3, e4]

theorem state_iter (k : Nat) : ∃ i, i < 15 ∧ (next (3 : Int))^[k] (init nonneg) = state i := by
  induction k with
  | zero => exact ⟨0, by omega, same_eq _ _ (by decide)⟩
  | succ k ih =>
    obtain ⟨i, hi, h⟩ := ih
    rw [Function.iterate_succ_apply', h]
    have key : ∀ i < 15, same (next 3 (state i)) (state (if i = 14 then 13 else i + 1)) = true := by decide
    refine ⟨if i = 14 then 13 else i + 1, by split <;> omega, same_eq _ _ (key i hi)⟩

/-- C38: the search does not end for every nonnegative cost matrix. The path of alternating primes and
stars is cut short, which leaves two stars in one column. -/
theorem C38_violates_termination (fuel : Nat) (ra ca : Fin 4 → Int) :
    (∀ i j, 0 ≤ nonneg i j) ∧ opt fuel nonneg ra ca = none := by
  refine ⟨by decide, ?_⟩
  have hm : matMax nonneg = 3 := by decide
  have hlt : ∀ k, ((next (3 : Int))^[k] (init nonneg)).step < 7 := by
    intro k
    obtain ⟨i, hi, h⟩ := state_iter k
    rw [h]
    have key : ∀ i < 15, (state i).step < 7 := by decide
    exact key i hi
  unfold opt
  rw [hm, loop_iter 3 (fuel + 1) _ (fun i _ => hlt i), if_pos (by omega)]
  rfl

/-- the hypotheses can be met: this search needs the path and creates zeros. -/
example : (opt 20 (![![7, 5, 9], ![8, 4, 9], ![6, 2, 8]] : Fin 3 → Fin 3 → Int) (fun _ => 0) (fun _ => 0)).isSome := by
  decide

example : (assignHungarian 20 2 3 (fun i j => ((i + 2) * (j + 1) : Int)) (fun _ => 0) (fun _ => 0)).isSome := by
  decide

example : Complete (fun (i : Fin 2) (j : Fin 3) => i.val + 1 = j.val) := by
  refine ⟨by decide, by decide, ?_, by omega⟩
  decide

end Verif.Hungarian
