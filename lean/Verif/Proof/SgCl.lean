import Verif.Model.SgCl
import Mathlib.Data.Sym.Sym2
import Mathlib.Data.Sym.Sym2.Order
import Mathlib.Logic.Function.Basic

/-!
# Helper lemmas: collision sets
-/

namespace Verif.Sg

/-- Position of the pair in the vector. -/
def cpos (n i j : Nat) : Nat := if i < j then n * j + i else n * i + j

theorem cpos_comm (n i j : Nat) : cpos n i j = cpos n j i := by
  unfold cpos
  split_ifs with h1 h2 h2
  · omega
  · rfl
  · rfl
  · have : i = j := by omega
    rw [this]

theorem cpos_lt {n i j : Nat} (hi : i < n) (hj : j < n) : cpos n i j < n * n := by
  unfold cpos
  have h1 : n * (j + 1) ≤ n * n := Nat.mul_le_mul_left _ hj
  have h2 : n * (i + 1) ≤ n * n := Nat.mul_le_mul_left _ hi
  rw [Nat.mul_succ] at h1 h2
  split_ifs <;> omega

theorem cpos_out {n i j : Nat} (h : ¬ (i < n ∧ j < n)) : ¬ cpos n i j < n * n := by
  unfold cpos
  intro hlt
  split_ifs at hlt with h1
  · have : n * n ≤ n * j := Nat.mul_le_mul_left _ (by omega)
    omega
  · have : n * n ≤ n * i := Nat.mul_le_mul_left _ (by omega)
    omega

theorem mul_add_inj {n a b a' b' : Nat} (hb : b < n) (hb' : b' < n)
    (h : n * a + b = n * a' + b') : a = a' ∧ b = b' := by
  have h1 : (n * a + b) / n = a := by
    rw [Nat.mul_add_div (by omega), Nat.div_eq_of_lt hb, Nat.add_zero]
  have h2 : (n * a' + b') / n = a' := by
    rw [Nat.mul_add_div (by omega), Nat.div_eq_of_lt hb', Nat.add_zero]
  have h3 : a = a' := by rw [← h1, h, h2]
  subst h3
  exact ⟨rfl, by omega⟩

theorem cpos_inj {n i j i' j' : Nat} (hi : i < n) (hj : j < n) (hi' : i' < n) (hj' : j' < n)
    (h : cpos n i j = cpos n i' j') : s(i, j) = s(i', j') := by
  unfold cpos at h
  rw [Sym2.eq_iff]
  split_ifs at h with h1 h2 h2
  · obtain ⟨a, b⟩ := mul_add_inj hi hi' h; exact Or.inl ⟨b, a⟩
  · obtain ⟨a, b⟩ := mul_add_inj hi hj' h; exact Or.inr ⟨b, a⟩
  · obtain ⟨a, b⟩ := mul_add_inj hj hi' h; exact Or.inr ⟨a, b⟩
  · obtain ⟨a, b⟩ := mul_add_inj hj hj' h; exact Or.inl ⟨a, b⟩

/-- The vector represents a set of unordered pairs of numbers below `n`. -/
def Rep (s : ClSet) (n : Nat) (S : Sym2 Nat → Bool) : Prop :=
  s.n = n ∧ s.v.length = n * n ∧
    ∀ i j, i < n → j < n → s.v[cpos n i j]? = some (S s(i, j))

theorem clIndex_eq {s : ClSet} {n : Nat} {S : Sym2 Nat → Bool} (h : Rep s n S) (i j : Nat) :
    clIndex s i j = if i < n ∧ j < n then some (cpos n i j) else none := by
  obtain ⟨h1, h2, -⟩ := h
  unfold clIndex
  rw [if_neg (by omega)]
  simp only [Int.toNat_natCast, h1, h2]
  change (if cpos n i j < n * n then some (cpos n i j) else none) = _
  by_cases hc : i < n ∧ j < n
  · rw [if_pos hc, if_pos (cpos_lt hc.1 hc.2)]
  · rw [if_neg hc, if_neg (cpos_out hc)]

theorem clGet_eq {s : ClSet} {n : Nat} {S : Sym2 Nat → Bool} (h : Rep s n S) (i j : Nat) :
    clGet s i j = if i < n ∧ j < n then some (S s(i, j)) else none := by
  unfold clGet
  rw [clIndex_eq h]
  by_cases hc : i < n ∧ j < n
  · rw [if_pos hc, if_pos hc]; exact h.2.2 i j hc.1 hc.2
  · rw [if_neg hc, if_neg hc]; rfl

theorem clSet_eq {s : ClSet} {n : Nat} {S : Sym2 Nat → Bool} (h : Rep s n S) {i j : Nat} (b : Bool)
    (hi : i < n) (hj : j < n) :
    ∃ s', clSet s i j b = some s' ∧ Rep s' n (Function.update S s(i, j) b) := by
  unfold clSet
  rw [clIndex_eq h, if_pos ⟨hi, hj⟩]
  refine ⟨_, rfl, h.1, by simpa using h.2.1, fun a c ha hc => ?_⟩
  simp only [List.getElem?_set]
  by_cases he : cpos n i j = cpos n a c
  · have := cpos_inj hi hj ha hc he
    rw [if_pos he, if_pos (by rw [h.2.1]; exact he ▸ cpos_lt ha hc), ← this, Function.update_self]
  · rw [if_neg he, h.2.2 a c ha hc, Function.update_of_ne]
    intro hs
    rcases Sym2.eq_iff.1 hs with ⟨rfl, rfl⟩ | ⟨rfl, rfl⟩
    · exact he rfl
    · exact he (cpos_comm _ _ _)

theorem clCreate_rep (n : Nat) : Rep (clCreate n) n (fun _ => false) := by
  refine ⟨rfl, by simp [clCreate], fun i j hi hj => ?_⟩
  simp only [clCreate, List.getElem?_replicate]
  rw [if_pos (cpos_lt hi hj)]

theorem clClear_eq {s : ClSet} {n : Nat} {S : Sym2 Nat → Bool} (h : Rep s n S) :
    clClear s = some (clCreate n) := by
  unfold clClear clCreate
  rw [h.1, if_pos h.2.1]
  rw [h.2.1]

theorem clFill_rep {d s : ClSet} {n : Nat} {D S : Sym2 Nat → Bool} (hd : Rep d n D)
    (hs : Rep s n S) : Rep (clFill d s) n S := ⟨hd.1, hs.2.1, hs.2.2⟩

open Classical in
/-- The pairs of row `i` with smaller number in `[j, j + k)` are merged. -/
theorem clMergeRow_eq {src : ClSet} {n : Nat} {S : Sym2 Nat → Bool} (hs : Rep src n S) (i : Nat)
    (hi : i < n) : ∀ (k j : Nat) (d : ClSet) (D : Sym2 Nat → Bool), Rep d n D → j + k ≤ i →
      ∃ d', clMergeRow src i k j d = some d' ∧ ∃ D', Rep d' n D' ∧
        ∀ p, D' p = (D p || (decide (∃ c, j ≤ c ∧ c < j + k ∧ p = s(i, c)) && S p)) := by
  intro k
  induction k with
  | zero =>
    intro j d D hd _
    refine ⟨d, rfl, D, hd, fun p => ?_⟩
    have : ¬ ∃ c, j ≤ c ∧ c < j + 0 ∧ p = s(i, c) := by rintro ⟨c, h1, h2, -⟩; omega
    rw [decide_eq_false this]
    simp
  | succ k ih =>
    intro j d D hd hle
    have hg : clGet src i j = some (S s(i, j)) := by
      rw [clGet_eq hs, if_pos ⟨hi, by omega⟩]
    unfold clMergeRow
    rw [hg]
    cases hb : S s(i, j) with
    | true =>
      obtain ⟨d1, e1, r1⟩ := clSet_eq hd true hi (by omega : j < n)
      obtain ⟨d2, e2, D', r2, h2⟩ := ih (j + 1) d1 _ r1 (by omega)
      refine ⟨d2, by simp only [e1]; exact e2, D', r2, fun p => ?_⟩
      rw [h2 p]
      by_cases hp : p = s(i, j)
      · subst hp
        have : ∃ c, j ≤ c ∧ c < j + (k + 1) ∧ s(i, j) = s(i, c) := ⟨j, le_refl _, by omega, rfl⟩
        rw [decide_eq_true this]
        simp [hb]
      · rw [Function.update_of_ne hp]
        congr 2
        apply decide_eq_decide.2
        constructor
        · rintro ⟨c, h3, h4, h5⟩; exact ⟨c, by omega, by omega, h5⟩
        · rintro ⟨c, h3, h4, h5⟩
          refine ⟨c, ?_, by omega, h5⟩
          rcases Nat.lt_or_ge j c with h6 | h6
          · omega
          · exact absurd (by rw [h5, show c = j by omega]) hp
    | false =>
      obtain ⟨d2, e2, D', r2, h2⟩ := ih (j + 1) d _ hd (by omega)
      refine ⟨d2, e2, D', r2, fun p => ?_⟩
      rw [h2 p]
      by_cases hp : p = s(i, j)
      · subst hp; simp [hb]
      · congr 2
        apply decide_eq_decide.2
        constructor
        · rintro ⟨c, h3, h4, h5⟩; exact ⟨c, by omega, by omega, h5⟩
        · rintro ⟨c, h3, h4, h5⟩
          refine ⟨c, ?_, by omega, h5⟩
          rcases Nat.lt_or_ge j c with h6 | h6
          · omega
          · exact absurd (by rw [h5, show c = j by omega]) hp

open Classical in
theorem clMergeLoop_eq {src : ClSet} {n : Nat} {S : Sym2 Nat → Bool} (hs : Rep src n S) :
    ∀ (k i : Nat) (d : ClSet) (D : Sym2 Nat → Bool), Rep d n D → i + k ≤ n →
      ∃ d', clMergeLoop src k i d = some d' ∧ ∃ D', Rep d' n D' ∧
        (∀ a b, b < a → a < n →
          D' s(a, b) = (D s(a, b) || (decide (i ≤ a ∧ a < i + k) && S s(a, b)))) ∧
        ∀ a, D' s(a, a) = D s(a, a) := by
  intro k
  induction k with
  | zero =>
    intro i d D hd _
    refine ⟨d, rfl, D, hd, fun a b _ _ => ?_, fun _ => rfl⟩
    have : ¬ (i ≤ a ∧ a < i + 0) := by omega
    rw [decide_eq_false this]
    simp
  | succ k ih =>
    intro i d D hd hle
    obtain ⟨d1, e1, D1, r1, h1⟩ := clMergeRow_eq hs i (by omega) i 0 d D hd (by omega)
    obtain ⟨d2, e2, D2, r2, h2⟩ := ih (i + 1) d1 D1 r1 (by omega)
    refine ⟨d2, by unfold clMergeLoop; rw [e1]; exact e2, D2, r2, ?_⟩
    have hdiag : ∀ x, D1 s(x, x) = D s(x, x) := by
      intro x
      rw [h1]
      have : ¬ ∃ c, 0 ≤ c ∧ c < 0 + i ∧ s(x, x) = s(i, c) := by
        rintro ⟨c, -, h4, h5⟩
        rcases Sym2.eq_iff.1 h5 with ⟨rfl, rfl⟩ | ⟨rfl, rfl⟩ <;> omega
      rw [decide_eq_false this]
      simp
    refine ⟨fun a b hba ha => ?_, fun a => by rw [h2.2, hdiag]⟩
    rw [h2.1 a b hba ha, h1]
    by_cases hai : a = i
    · subst hai
      have : ∃ c, 0 ≤ c ∧ c < 0 + a ∧ s(a, b) = s(a, c) := ⟨b, by omega, by omega, rfl⟩
      rw [decide_eq_true this, decide_eq_true (by omega : a ≤ a ∧ a < a + (k + 1)),
        decide_eq_false (by omega : ¬ (a + 1 ≤ a ∧ a < a + 1 + k))]
      simp
    · have : ¬ ∃ c, 0 ≤ c ∧ c < 0 + i ∧ s(a, b) = s(i, c) := by
        rintro ⟨c, -, h4, h5⟩
        rcases Sym2.eq_iff.1 h5 with ⟨rfl, rfl⟩ | ⟨rfl, rfl⟩ <;> omega
      rw [decide_eq_false this]
      have hd' : decide (i + 1 ≤ a ∧ a < i + 1 + k) = decide (i ≤ a ∧ a < i + (k + 1)) := by
        apply decide_eq_decide.2; omega
      rw [hd']
      simp

/-- Merging is the union except on the diagonal, which keeps the value of the destination. -/
theorem clMerge_rep {d src : ClSet} {n : Nat} {D S : Sym2 Nat → Bool} (hd : Rep d n D)
    (hs : Rep src n S) :
    ∃ d', clMerge d src = some d' ∧
      Rep d' n (fun p => D p || (!decide p.IsDiag && S p)) := by
  unfold clMerge
  rw [hd.1, hs.1, if_pos rfl]
  obtain ⟨d', e, D', r, h⟩ := clMergeLoop_eq hs n 0 d D hd (by omega)
  refine ⟨d', e, r.1, r.2.1, fun i j hi hj => ?_⟩
  rw [r.2.2 i j hi hj]
  congr 1
  rcases Nat.lt_trichotomy i j with hij | rfl | hij
  · rw [Sym2.eq_swap, h.1 j i hij hj]
    simp [show j ≠ i by omega, hj]
  · rw [h.2]
    simp
  · rw [h.1 i j hij hi]
    simp [show i ≠ j by omega, hi]

end Verif.Sg
