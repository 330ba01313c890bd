import Verif.Prop.La
import Mathlib.Data.List.Count
import Mathlib.Data.Finset.Card

/-!
# C63: extrema, means, covariances and medians of arrays
-/

namespace Verif.La

open Verif.Mat

variable {K : Type} [Field K]

/-! ## Extrema -/

/-- **C63 (minimum and maximum).** The least and greatest element; the infinities for no elements. -/
theorem C63_min_max (n x : Nat) (m : Mem ℝ) :
    (lmin 0 x m = ⊤ ∧ lmax 0 x m = ⊥) ∧
    (0 < n → ∃ i < n, lmin n x m = (m (x + i) : ℝ) ∧ ∀ j < n, m (x + i) ≤ m (x + j)) ∧
    (0 < n → ∃ i < n, lmax n x m = (m (x + i) : ℝ) ∧ ∀ j < n, m (x + j) ≤ m (x + i)) := by
  refine ⟨⟨rfl, rfl⟩, ?_, ?_⟩
  · intro hn
    obtain ⟨n, rfl⟩ : ∃ k, n = k + 1 := ⟨n - 1, by omega⟩
    clear hn
    induction n with
    | zero =>
      refine ⟨0, by omega, by simp [lmin, forN], fun j hj => ?_⟩
      obtain rfl : j = 0 := by omega
      exact le_rfl
    | succ n ih =>
      obtain ⟨i, hi, e, h⟩ := ih
      have e2 : lmin (n + 1 + 1) x m = if lmin (n + 1) x m < (m (x + (n + 1)) : ℝ) then lmin (n + 1) x m
          else (m (x + (n + 1)) : ℝ) := by
        rw [lmin, forN_snoc]; rfl
      rw [e2, e]
      split_ifs with hlt
      · have hlt' : m (x + i) < m (x + (n + 1)) := by exact_mod_cast hlt
        refine ⟨i, by omega, rfl, fun j hj => ?_⟩
        rcases Nat.lt_succ_iff_lt_or_eq.1 hj with hj | rfl
        · exact h j hj
        · exact hlt'.le
      · have hlt' : m (x + (n + 1)) ≤ m (x + i) := by
          rw [not_lt] at hlt; exact_mod_cast hlt
        refine ⟨n + 1, by omega, rfl, fun j hj => ?_⟩
        rcases Nat.lt_succ_iff_lt_or_eq.1 hj with hj | rfl
        · exact hlt'.trans (h j hj)
        · exact le_rfl
  · intro hn
    obtain ⟨n, rfl⟩ : ∃ k, n = k + 1 := ⟨n - 1, by omega⟩
    clear hn
    induction n with
    | zero =>
      refine ⟨0, by omega, by simp [lmax, forN], fun j hj => ?_⟩
      obtain rfl : j = 0 := by omega
      exact le_rfl
    | succ n ih =>
      obtain ⟨i, hi, e, h⟩ := ih
      have e2 : lmax (n + 1 + 1) x m = if lmax (n + 1) x m > (m (x + (n + 1)) : ℝ) then lmax (n + 1) x m
          else (m (x + (n + 1)) : ℝ) := by
        rw [lmax, forN_snoc]; rfl
      rw [e2, e]
      split_ifs with hlt
      · have hlt' : m (x + (n + 1)) < m (x + i) := by exact_mod_cast hlt
        refine ⟨i, by omega, rfl, fun j hj => ?_⟩
        rcases Nat.lt_succ_iff_lt_or_eq.1 hj with hj | rfl
        · exact h j hj
        · exact hlt'.le
      · have hlt' : m (x + i) ≤ m (x + (n + 1)) := by
          rw [gt_iff_lt, not_lt] at hlt; exact_mod_cast hlt
        refine ⟨n + 1, by omega, rfl, fun j hj => ?_⟩
        rcases Nat.lt_succ_iff_lt_or_eq.1 hj with hj | rfl
        · exact (h j hj).trans hlt'
        · exact le_rfl

/-- **C63 (location of extrema).** `minloc` and `maxloc` return the first index of a least (greatest)
element of a strided array. -/
theorem C63_loc {α : Type} [LinearOrder α] (n x inc : Nat) (hn : 0 < n) (m : Nat → α) :
    (minloc n x inc m < n ∧ (∀ j < n, m (x + minloc n x inc m * inc) ≤ m (x + j * inc)) ∧
      ∀ j < minloc n x inc m, m (x + minloc n x inc m * inc) < m (x + j * inc)) ∧
    (maxloc n x inc m < n ∧ (∀ j < n, m (x + j * inc) ≤ m (x + maxloc n x inc m * inc)) ∧
      ∀ j < maxloc n x inc m, m (x + j * inc) < m (x + maxloc n x inc m * inc)) := by
  obtain ⟨n, rfl⟩ : ∃ k, n = k + 1 := ⟨n - 1, by omega⟩
  clear hn
  constructor
  · have key : ∀ k, let s := forN k (fun k (s : Nat × α) =>
        if m (x + (k + 1) * inc) < s.2 then (k + 1, m (x + (k + 1) * inc)) else s) (0, m x)
        s.1 < k + 1 ∧ s.2 = m (x + s.1 * inc) ∧ (∀ j < k + 1, m (x + s.1 * inc) ≤ m (x + j * inc)) ∧
        ∀ j < s.1, m (x + s.1 * inc) < m (x + j * inc) := by
      intro k
      induction k with
      | zero =>
        refine ⟨by simp [forN], by simp [forN], fun j hj => ?_, fun j hj => ?_⟩
        · obtain rfl : j = 0 := by omega
          simp [forN]
        · simp [forN] at hj
      | succ k ih =>
        simp only at ih ⊢
        rw [forN_snoc]
        generalize forN k _ _ = s at *
        obtain ⟨i, v⟩ := s
        obtain ⟨h1, h2, h3, h4⟩ := ih
        simp only at h1 h2 h3 h4 ⊢
        subst h2
        split_ifs with hlt
        · refine ⟨by simp, rfl, fun j hj => ?_, fun j hj => hlt.trans_le (h3 j hj)⟩
          rcases Nat.lt_succ_iff_lt_or_eq.1 hj with hj | rfl
          · exact hlt.le.trans (h3 j hj)
          · exact le_rfl
        · refine ⟨by simp only; omega, rfl, fun j hj => ?_, h4⟩
          rcases Nat.lt_succ_iff_lt_or_eq.1 hj with hj | rfl
          · exact h3 j hj
          · exact not_lt.1 hlt
    obtain ⟨h1, -, h3, h4⟩ := key n
    exact ⟨h1, h3, h4⟩
  · have key : ∀ k, let s := forN k (fun k (s : Nat × α) =>
        if m (x + (k + 1) * inc) > s.2 then (k + 1, m (x + (k + 1) * inc)) else s) (0, m x)
        s.1 < k + 1 ∧ s.2 = m (x + s.1 * inc) ∧ (∀ j < k + 1, m (x + j * inc) ≤ m (x + s.1 * inc)) ∧
        ∀ j < s.1, m (x + j * inc) < m (x + s.1 * inc) := by
      intro k
      induction k with
      | zero =>
        refine ⟨by simp [forN], by simp [forN], fun j hj => ?_, fun j hj => ?_⟩
        · obtain rfl : j = 0 := by omega
          simp [forN]
        · simp [forN] at hj
      | succ k ih =>
        simp only at ih ⊢
        rw [forN_snoc]
        generalize forN k _ _ = s at *
        obtain ⟨i, v⟩ := s
        obtain ⟨h1, h2, h3, h4⟩ := ih
        simp only at h1 h2 h3 h4 ⊢
        subst h2
        split_ifs with hlt
        · refine ⟨by simp, rfl, fun j hj => ?_, fun j hj => (h3 j hj).trans_lt hlt⟩
          rcases Nat.lt_succ_iff_lt_or_eq.1 hj with hj | rfl
          · exact (h3 j hj).trans hlt.le
          · exact le_rfl
        · refine ⟨by simp only; omega, rfl, fun j hj => ?_, h4⟩
          rcases Nat.lt_succ_iff_lt_or_eq.1 hj with hj | rfl
          · exact h3 j hj
          · exact not_lt.1 hlt
    obtain ⟨h1, -, h3, h4⟩ := key n
    exact ⟨h1, h3, h4⟩

theorem max_fold {α ι : Type} [LinearOrder α] (f : ι → α) (L : List ι) (s : ι × α) (P : ι → Prop)
    (hs : s.2 = f s.1) (hp : P s.1) (hL : ∀ k ∈ L, P k) :
    let r := L.foldl (fun (s : ι × α) k => if f k > s.2 then (k, f k) else s) s
    r.2 = f r.1 ∧ P r.1 ∧ s.2 ≤ r.2 ∧ ∀ k ∈ L, f k ≤ r.2 := by
  induction L generalizing s with
  | nil => exact ⟨hs, hp, le_rfl, by simp⟩
  | cons a L ih =>
    simp only [List.foldl_cons]
    obtain ⟨h1, h2, h3, h4⟩ := ih (if f a > s.2 then (a, f a) else s) (by split_ifs <;> simp [hs])
      (by split_ifs <;> [exact hL a (by simp); exact hp]) (fun k hk => hL k (by simp [hk]))
    refine ⟨h1, h2, ?_, ?_⟩
    · refine le_trans ?_ h3
      split_ifs with h
      · exact le_of_lt h
      · exact le_rfl
    · intro k hk
      rcases List.mem_cons.1 hk with rfl | hk
      · refine le_trans ?_ h3
        split_ifs with h
        · exact le_rfl
        · exact not_lt.1 h
      · exact h4 k hk

/-- **C63 (maximum of a matrix).** The reported location is inside a nonempty matrix, holds the
reported value, and no element is greater. -/
theorem C63_mat_max {α : Type} [LinearOrder α] (A : DMat) (hr : 0 < A.rows) (hc : 0 < A.cols) (m : Nat → α) :
    let r := matMax A.rows A.cols A.data A.ld m
    r.1.1 < A.rows ∧ r.1.2 < A.cols ∧ r.2 = m (A.ref r.1.1 r.1.2) ∧
    ∀ i < A.rows, ∀ j < A.cols, m (A.ref i j) ≤ r.2 := by
  have := max_fold (fun p : Nat × Nat => m (A.ref p.1 p.2)) (List.range A.rows ×ˢ List.range A.cols)
    ((0, 0), m A.data) (fun p => p.1 < A.rows ∧ p.2 < A.cols) (by simp [DMat.ref]) ⟨hr, hc⟩
    (by rintro ⟨i, j⟩ h; simpa using h)
  simp only at this ⊢
  rw [matMax, forN_nest]
  obtain ⟨h1, h2, -, h4⟩ := this
  exact ⟨h2.1, h2.2, h1, fun i hi j hj => h4 (i, j) (by simp [hi, hj])⟩

/-! ## Means and covariance -/

/-- summing strided arrays into one array. -/
theorem axpy_loop (n rows x : Nat) (src : Nat → Nat) (inc : Nat)
    (hd : ∀ i < n, ∀ k < rows, ∀ l < rows, src i + k * inc ≠ x + l) (m : Mem K) :
    VecWrite (arr rows x) m (forN n (fun i m => daxpy rows 1 (src i) inc x 1 m) m)
      (fun k => m (x + k) + ∑ i ∈ Finset.range n, m (src i + k * inc)) := by
  induction n with
  | zero => exact ⟨fun k _ => by simp [forN, DVec.ref], fun a _ => rfl⟩
  | succ n ih =>
    obtain ⟨h1, h2⟩ := ih (fun i hi => hd i (by omega))
    rw [forN_snoc]
    set F := forN n (fun i m => daxpy rows 1 (src i) inc x 1 m) m
    obtain ⟨g1, g2⟩ := elem rows x (fun k m => 1 * m (src n + k * inc) + m (x + k)) (fun k hk m m' h => by
      rw [h _ (fun l hl _ => hd n (by omega) k hk l hl), h (x + k) (fun l hl hne => by omega)]) F
    simp only [daxpy, mul_one]
    constructor
    · intro k hk
      refine (g1 k hk).trans ?_
      have := h1 k hk
      simp only [DVec.ref, mul_one] at this ⊢
      rw [this, h2 (src n + k * inc) (fun l hl => by simpa [DVec.ref] using hd n (by omega) k hk l hl),
        Finset.sum_range_succ]
      ring
    · intro a ha
      rw [g2 a ha, h2 a ha]

/-- **C63 (means).** Means of the columns and of the rows of a matrix (any leading dimension) into an
array disjoint from it; they fail exactly when there is nothing to average. -/
theorem C63_mean [DecidableEq K] [CharZero K] (A : DMat) (x : Nat) (m : Mem K) :
    (colmean A.rows A.cols A.data A.ld x m = none ↔ A.cols = 0) ∧
    (rowmean A.rows A.cols A.data A.ld x m = none ↔ A.rows = 0) ∧
    (∀ m', (∀ i < A.rows, ∀ j < A.cols, A.ref i j < x ∨ x + A.rows ≤ A.ref i j) →
      colmean A.rows A.cols A.data A.ld x m = some m' →
      VecWrite (arr A.rows x) m m' (fun i => (∑ j ∈ Finset.range A.cols, m (A.ref i j)) / A.cols)) ∧
    (∀ m', (∀ i < A.rows, ∀ j < A.cols, A.ref i j < x ∨ x + A.cols ≤ A.ref i j) →
      rowmean A.rows A.cols A.data A.ld x m = some m' →
      VecWrite (arr A.cols x) m m' (fun j => (∑ i ∈ Finset.range A.rows, m (A.ref i j)) / A.rows)) := by
  have gen : ∀ (n rows : Nat) (src : Nat → Nat) (inc : Nat) (c : K),
      (∀ i < n, ∀ k < rows, ∀ l < rows, src i + k * inc ≠ x + l) →
      VecWrite (arr rows x) m (dscal rows (1 / c) x 1 (forN n (fun i m => daxpy rows 1 (src i) inc x 1 m)
        (forN rows (fun i m => store m (x + i) 0) m)))
        (fun k => (∑ i ∈ Finset.range n, m (src i + k * inc)) / c) := by
    intro n rows src inc c hd
    obtain ⟨z1, z2⟩ := elem rows x (fun _ (_ : Mem K) => (0 : K)) (fun _ _ _ _ _ => rfl) m
    set m0 := forN rows (fun i m => store m (x + i) (0 : K)) m
    obtain ⟨l1, l2⟩ := axpy_loop n rows x src inc hd m0
    obtain ⟨s1, s2⟩ := (C33_vector (arr rows x) Nat.one_pos (1 / c)
      (forN n (fun i m => daxpy rows 1 (src i) inc x 1 m) m0)).2.2.1
    constructor
    · intro k hk
      refine (s1 k hk).trans ?_
      simp only
      have := z1 k hk
      simp only [DVec.ref, mul_one] at this
      rw [l1 k hk]
      simp only
      rw [this, zero_add, one_div, mul_comm, ← div_eq_mul_inv]
      congr 1
      refine Finset.sum_congr rfl (fun i hi => ?_)
      exact z2 _ (fun l hl => by simpa [DVec.ref] using hd i (Finset.mem_range.1 hi) k hk l hl)
    · intro a ha
      refine (s2 a ha).trans ?_
      rw [l2 a ha, z2 a ha]
  refine ⟨?_, ?_, ?_, ?_⟩
  · simp only [colmean]; split_ifs with h <;> simpa using h
  · simp only [rowmean]; split_ifs with h <;> simpa using h
  · intro m' hd h
    simp only [colmean] at h
    split_ifs at h with h0
    injection h with h
    subst h
    have := gen A.cols A.rows (fun i => A.data + i * A.ld) 1 (A.cols : K) (fun i hi k hk l hl => by
      have := hd k hk i hi
      simp only [DMat.ref] at this
      rw [show A.data + i * A.ld + k * 1 = A.data + (A.ld * i + k) by ring]
      omega)
    refine ⟨fun k hk => (this.1 k hk).trans ?_, this.2⟩
    simp only
    congr 1
    refine Finset.sum_congr rfl (fun i _ => ?_)
    rw [DMat.ref, show A.data + i * A.ld + k * 1 = A.data + (A.ld * i + k) by ring]
  · intro m' hd h
    simp only [rowmean] at h
    split_ifs at h with h0
    injection h with h
    subst h
    have := gen A.rows A.cols (fun i => A.data + i) A.ld (A.rows : K) (fun i hi k hk l hl => by
      have := hd i hi k hk
      simp only [DMat.ref] at this
      rw [show A.data + i + k * A.ld = A.data + (A.ld * k + i) by ring]
      omega)
    refine ⟨fun k hk => (this.1 k hk).trans ?_, this.2⟩
    simp only
    congr 1
    refine Finset.sum_congr rfl (fun i _ => ?_)
    rw [DMat.ref, show A.data + i + k * A.ld = A.data + (A.ld * k + i) by ring]

theorem dsyr_spec (E : DMat) (hE : E.rows ≤ E.ld) (t : Nat → K) (m : Mem K) :
    (∀ i j, i ≤ j → j < E.rows → dsyr E.rows t E.data E.ld m (E.ref i j) = m (E.ref i j) + t i * t j) ∧
    ∀ a, (∀ i j, i ≤ j → j < E.rows → a ≠ E.ref i j) → dsyr E.rows t E.data E.ld m a = m a := by
  rw [dsyr, forN_dep]
  have := upd_fold (K := K) (fun p : Nat × Nat => E.ref p.2 p.1) (fun p m => m (E.ref p.2 p.1) + t p.2 * t p.1)
    _ (dep_nodup E.rows (fun j => j + 1))
    (fun p hp q hq e => by
      have hp := dep_mem.1 hp
      have hq := dep_mem.1 hq
      obtain ⟨e1, e2⟩ := mref_inj hE (by omega) (by omega) e
      exact Prod.ext e1 e2)
    (fun p hp m m' h => by
      rw [h _ (fun q hq hne e => ?_)]
      have hp := dep_mem.1 hp
      have hq := dep_mem.1 hq
      obtain ⟨e1, e2⟩ := mref_inj hE (by omega) (by omega) e
      exact hne (Prod.ext e1.symm e2.symm)) m
  constructor
  · intro i j hij hj
    exact this.1 (j, i) (dep_mem.2 ⟨hj, by simp only; omega⟩)
  · intro a ha
    refine this.2 a (fun p hp => ?_)
    have hp := dep_mem.1 hp
    exact ha _ _ (by omega) hp.1

/-- the sample covariance of rows `i` and `j` of `A` around `x`. -/
def sampleCov (A : DMat) (x : Nat) (m : Mem K) (i j : Nat) : K :=
  (∑ k ∈ Finset.range A.cols, (m (A.ref i k) - m (x + i)) * (m (A.ref j k) - m (x + j))) / (A.cols - 1)

/-- **C63 (covariance, partial).** With an unpadded result (`lde = m`) `aa_la_d_colcov` is the sample
covariance of the columns around `x`. -/
theorem C63_colcov_partial [DecidableEq K] [CharZero K] (A : DMat) (x e : Nat) (m : Mem K)
    (h2 : 2 ≤ A.cols)
    (hA : ∀ i < A.rows, ∀ j < A.cols, A.ref i j < e ∨ e + A.rows * A.rows ≤ A.ref i j)
    (hx : x + A.rows ≤ e ∨ e + A.rows * A.rows ≤ x) :
    ∃ m', colcov A.rows A.cols A.data A.ld x e A.rows m = some m' ∧
      MatWrite (marr A.rows A.rows e) m m' (sampleCov A x m) := by
  set p := A.rows with hp
  set E := marr p p e with hEd
  have inE : ∀ i < p, ∀ j < p, e ≤ E.ref i j ∧ E.ref i j < e + p * p := by
    intro i hi j hj
    simp only [E, DMat.ref]
    have : p * j + i < p * p := by nlinarith
    omega
  have hc : ((A.cols - 1 : Nat) : K) = (A.cols : K) - 1 := by
    rw [Nat.cast_sub (by omega)]; simp
  have hc0 : ((A.cols - 1 : Nat) : K) ≠ 0 := by
    rw [Nat.cast_ne_zero]; omega
  -- zero
  have hz := forN_mat (M := E) le_rfl (fun _ _ (_ : Mem K) => (0 : K)) (fun _ _ _ _ _ _ _ => rfl) m
  have hz' : MatWrite E m (forN p (fun j m => forN p (fun i m => store m (e + (j * p + i)) (0 : K)) m) m)
      (fun _ _ => 0) := by
    simp only [DMat.ref, E, mul_comm p] at hz ⊢; exact hz
  set m0 := forN p (fun j m => forN p (fun i m => store m (e + (j * p + i)) (0 : K)) m) m
  -- the columns
  have loop : ∀ n ≤ A.cols, let F := forN n (fun j m => dsyr p (fun r => m (A.data + (j * A.ld + r)) + -1 * m (x + r)) e p m) m0
      (∀ i j, i ≤ j → j < p → F (E.ref i j) =
        ∑ k ∈ Finset.range n, (m (A.ref i k) - m (x + i)) * (m (A.ref j k) - m (x + j))) ∧
      (∀ a, (a < e ∨ e + p * p ≤ a) → F a = m a) := by
    intro n hn
    induction n with
    | zero =>
      refine ⟨fun i j hij hj => ?_, fun a ha => ?_⟩
      · simpa [forN] using hz'.1 i (by simp only [E]; omega) j hj
      · exact hz'.2 a (fun i hi j hj h => by have := inE i hi j hj; omega)
    | succ n ih =>
      obtain ⟨i1, i2⟩ := ih (by omega)
      simp only at i1 i2 ⊢
      rw [forN_snoc]
      set F := forN n (fun j m => dsyr p (fun r => m (A.data + (j * A.ld + r)) + -1 * m (x + r)) e p m) m0
      obtain ⟨d1, d2⟩ := dsyr_spec E le_rfl (fun r => F (A.data + (n * A.ld + r)) + -1 * F (x + r)) F
      have ht : ∀ r < p, F (A.data + (n * A.ld + r)) + -1 * F (x + r) = m (A.ref r n) - m (x + r) := by
        intro r hr
        have hA' := hA r hr n (by omega)
        rw [show A.data + (n * A.ld + r) = A.ref r n by simp only [DMat.ref]; ring, i2 _ hA',
          i2 (x + r) (by omega)]
        ring
      constructor
      · intro i j hij hj
        rw [d1 i j hij hj, i1 i j hij hj, Finset.sum_range_succ, ht i (by omega), ht j hj]
      · intro a ha
        rw [d2, i2 a ha]
        intro i j hij hj h
        have := inE i (by simp only [E] at hj; omega) j hj
        omega
  obtain ⟨l1, l2⟩ := loop A.cols le_rfl
  set m1 := forN A.cols (fun j m => dsyr p (fun r => m (A.data + (j * A.ld + r)) + -1 * m (x + r)) e p m) m0
  -- scaling
  obtain ⟨s1, s2⟩ := (C33_vector (arr (p * p) e) Nat.one_pos (1 / ((A.cols - 1 : Nat) : K)) m1).2.2.1
  set m2 := vscal (1 / ((A.cols - 1 : Nat) : K)) (arr (p * p) e) m1 with hm2
  have u1 : ∀ i j, i ≤ j → j < p → m2 (E.ref i j) = sampleCov A x m i j := by
    intro i j hij hj
    have := s1 (p * j + i) (by simp only; nlinarith)
    simp only [DVec.ref, mul_one] at this
    have e1 : e + (p * j + i) = E.ref i j := rfl
    rw [e1, l1 i j hij hj] at this
    rw [this, sampleCov, hc]
    ring
  have u2 : ∀ a, (a < e ∨ e + p * p ≤ a) → m2 a = m a := by
    intro a ha
    rw [s2, l2 a ha]
    intro k hk
    simp only [DVec.ref] at *
    omega
  refine ⟨_, by unfold colcov; rw [if_neg hc0], ?_⟩
  have hm2' : dscal (p * p) (1 / ((A.cols - 1 : Nat) : K)) e 1 m1 = m2 := rfl
  rw [hm2', forN_dep]
  have inj : ∀ {i j i' j' : Nat}, i < p → i' < p → E.ref i j = E.ref i' j' → j = j' ∧ i = i' :=
    fun hi hi' e => mref_inj (M := E) le_rfl hi hi' e
  have := upd_fold (K := K) (fun q : Nat × Nat => E.ref (q.1 + 1 + q.2) q.1)
    (fun q m => m (E.ref q.1 (q.1 + 1 + q.2))) _ (dep_nodup p (fun i => p - (i + 1)))
    (fun q hq r hr e => by
      have hq := dep_mem.1 hq
      have hr := dep_mem.1 hr
      obtain ⟨e1, e2⟩ := inj (by omega) (by omega) e
      exact Prod.ext e1 (by omega))
    (fun q hq m m' h => h _ (fun r hr hne e => by
      have hq := dep_mem.1 hq
      have hr := dep_mem.1 hr
      obtain ⟨e1, e2⟩ := inj (by omega) (by omega) e
      omega)) m2
  obtain ⟨f1, f2⟩ := this
  constructor
  · intro i hi j hj
    simp only [E] at hi hj
    by_cases hij : i ≤ j
    · refine (f2 _ (fun q hq e => ?_)).trans (u1 i j hij hj)
      have hq := dep_mem.1 hq
      obtain ⟨e1, e2⟩ := inj hi (by omega) e
      omega
    · have := f1 (j, i - (j + 1)) (dep_mem.2 ⟨hj, by simp only; omega⟩)
      simp only [show j + 1 + (i - (j + 1)) = i by omega] at this
      refine this.trans ((u1 j i (by omega) hi).trans ?_)
      simp only [sampleCov]
      congr 1
      exact Finset.sum_congr rfl (fun k _ => mul_comm _ _)
  · intro a ha
    refine (f2 a (fun q hq => by
      have hq := dep_mem.1 hq
      exact ha _ (by simp only [E]; omega) _ (by simp only [E]; omega))).trans ?_
    by_cases h : a < e ∨ e + p * p ≤ a
    · exact u2 a h
    · exfalso
      have hp0 : 0 < p := by
        by_contra h0
        simp only [show p = 0 by omega] at h
        omega
      refine ha ((a - e) % p) (Nat.mod_lt _ hp0) ((a - e) / p) (Nat.div_lt_of_lt_mul (show a - e < p * p by omega)) ?_
      simp only [DMat.ref, E, Nat.div_add_mod]
      omega

/-- **C63 is violated by `aa_la_d_colcov`** when the result has padding between its columns: the
scaling and the filling of the lower half ignore the leading dimension. -/
theorem C63_violates_colcov : ∃ (A : DMat) (x e lde : Nat) (m m' : Mem ℚ), A.rows < lde ∧
    colcov A.rows A.cols A.data A.ld x e lde m = some m' ∧
    m' (DMat.ref ⟨2, 2, e, lde⟩ 1 0) = 0 ∧ sampleCov A x m 1 0 = 2 := by
  refine ⟨⟨2, 2, 0, 2⟩, 4, 6, 3, fun a => if a = 2 ∨ a = 3 then 2 else if a = 4 ∨ a = 5 then 1 else 0, _,
    by decide, by simp only [colcov]; rw [if_neg (by norm_num)], ?_, ?_⟩
  · simp [forN, List.range_succ, DMat.ref, store, dsyr, dscal]
  · norm_num [sampleCov, Finset.sum_range_succ, DMat.ref]

/-- **C63 (standard deviation).** Fails for a single element; otherwise the nonnegative number whose
square is the mean square deviation from `mu` with `n-1` in the denominator. -/
theorem C63_vecstd (n x inc : Nat) (mu : ℝ) (m : Mem ℝ) :
    vecstd 1 x inc mu m = none ∧ (2 ≤ n → ∃ s, vecstd n x inc mu m = some s ∧ 0 ≤ s ∧
      s ^ 2 * (n - 1) = ∑ k ∈ Finset.range n, (m (x + k * inc) - mu) ^ 2) := by
  refine ⟨rfl, fun hn => ⟨_, by rw [vecstd, if_neg (by omega)], Real.sqrt_nonneg _, ?_⟩⟩
  rw [forN_sum n (fun k => (m (x + k * inc) - mu) * (m (x + k * inc) - mu)), zero_add, Nat.cast_sub (by omega),
    Real.sq_sqrt]
  · have : (n : ℝ) - ((1 : ℕ) : ℝ) ≠ 0 := by
      have : (2 : ℝ) ≤ n := by exact_mod_cast hn
      norm_num; linarith
    rw [Nat.cast_one] at this ⊢
    rw [div_mul_cancel₀ _ this]
    exact Finset.sum_congr rfl (fun k _ => (pow_two _).symm)
  · apply div_nonneg (Finset.sum_nonneg (fun k _ => mul_self_nonneg _))
    have : (2 : ℝ) ≤ n := by exact_mod_cast hn
    norm_num; linarith

/-! ## Medians -/

/-- at least half of the `n` values are at most `v` and at least half are at least `v`. -/
def IsMedian (n : Nat) (x : Nat → ℝ) (v : ℝ) : Prop :=
  n ≤ 2 * ((Finset.range n).filter (fun k => x k ≤ v)).card ∧
  n ≤ 2 * ((Finset.range n).filter (fun k => v ≤ x k)).card

theorem card_filter_range (n : Nat) (p : Nat → Prop) [DecidablePred p] :
    ((Finset.range n).filter p).card = (List.range n).countP p := by
  induction n with
  | zero => simp
  | succ n ih =>
    rw [Finset.range_add_one, Finset.filter_insert, List.range_succ, List.countP_append, ← ih]
    split_ifs with h <;> simp [h]

theorem cmp_compar : Heap.Cmp compar (· ≤ ·) := by
  refine ⟨fun a b => ?_, le_total, fun a b d h1 h2 => h1.trans h2⟩
  rw [not_le, compar]
  split_ifs with h1 h2
  · simpa using h1
  · simpa using le_of_lt h2
  · simpa using h1

theorem median_sorted {n : Nat} (hn : 0 < n) {y : Nat → ℝ} (hs : ∀ j k, j ≤ k → k < n → y j ≤ y k) :
    IsMedian n y (if n % 2 = 1 then y (n / 2) else (y (n / 2) + y (n / 2 - 1)) / 2) := by
  have lo : ∀ h v, n ≤ 2 * h → h ≤ n → (∀ j < h, y j ≤ v) →
      n ≤ 2 * ((Finset.range n).filter (fun k => y k ≤ v)).card := by
    intro h v h1 h2 h3
    have : Finset.range h ⊆ (Finset.range n).filter (fun k => y k ≤ v) := by
      intro j hj
      simp only [Finset.mem_range, Finset.mem_filter] at *
      exact ⟨by omega, h3 j hj⟩
    have := Finset.card_le_card this
    rw [Finset.card_range] at this
    omega
  have hi : ∀ h v, 2 * h ≤ n → (∀ j, h ≤ j → j < n → v ≤ y j) →
      n ≤ 2 * ((Finset.range n).filter (fun k => v ≤ y k)).card := by
    intro h v h1 h3
    have : Finset.Ico h n ⊆ (Finset.range n).filter (fun k => v ≤ y k) := by
      intro j hj
      simp only [Finset.mem_Ico, Finset.mem_range, Finset.mem_filter] at *
      exact ⟨by omega, h3 j hj.1 hj.2⟩
    have := Finset.card_le_card this
    rw [Nat.card_Ico] at this
    omega
  split_ifs with h
  · exact ⟨lo (n / 2 + 1) _ (by omega) (by omega) (fun j hj => hs j _ (by omega) (by omega)),
      hi (n / 2) _ (by omega) (fun j h1 h2 => hs _ j h1 h2)⟩
  · have h0 : y (n / 2 - 1) ≤ y (n / 2) := hs _ _ (by omega) (by omega)
    refine ⟨lo (n / 2) _ (by omega) (by omega) (fun j hj => ?_), hi (n / 2) _ (by omega) (fun j h1 h2 => ?_)⟩
    · have := hs j (n / 2 - 1) (by omega) (by omega)
      linarith
    · have := hs (n / 2) j h1 h2
      linarith

theorem nmedian_spec {n : Nat} (hn : 0 < n) (x : Nat → ℝ) : IsMedian n x (nmedian n x) := by
  obtain ⟨h1, h2, -⟩ := Heap.C14_sort compar (· ≤ ·) cmp_compar n x
  have hs : ∀ j k, j ≤ k → k < n → Heap.sort compar n x j ≤ Heap.sort compar n x k := by
    intro j k hjk hk
    rcases Nat.eq_or_lt_of_le hjk with rfl | hlt
    · exact le_rfl
    · have := List.pairwise_iff_getElem.1 h1 j k (by simpa using by omega) (by simpa using hk) hlt
      simpa using this
  have hm := median_sorted hn hs
  have tr : ∀ v, IsMedian n (Heap.sort compar n x) v → IsMedian n x v := by
    intro v ⟨g1, g2⟩
    rw [card_filter_range] at g1 g2
    have e : ∀ (q : ℝ → Prop) [DecidablePred q], (List.range n).countP (fun k => decide (q (Heap.sort compar n x k))) =
        (List.range n).countP (fun k => decide (q (x k))) := by
      intro q _
      have := h2.countP_eq (fun a => decide (q a))
      rw [List.countP_map, List.countP_map] at this
      exact this
    refine ⟨?_, ?_⟩
    · rw [card_filter_range, ← e (fun a => a ≤ v)]; exact g1
    · rw [card_filter_range, ← e (fun a => v ≤ a)]; exact g2
  rw [nmedian, if_neg (by omega)]
  split_ifs with h1 h2
  · subst h1
    have h : x 0 ≤ x 0 := le_rfl
    refine ⟨?_, ?_⟩ <;> rw [Finset.range_one, Finset.filter_singleton, if_pos h] <;> simp
  · rw [if_pos h2] at hm
    exact tr _ hm
  · rw [if_neg h2] at hm
    exact tr _ hm

/-- **C63 (medians).** `aa_la_d_median`, `aa_la_d_mad` and `aa_la_d_mad2` return a median of the
elements, of their absolute deviations from `u`, and of the Euclidean distances of the columns from
`u`. -/
theorem C63_median (n : Nat) (hn : 0 < n) (x inc : Nat) (m : Mem ℝ) :
    IsMedian n (fun k => m (x + k * inc)) (median n x inc m) ∧
    (∀ u, IsMedian n (fun k => |m (x + k * inc) - u|) (mad n u x inc m)) ∧
    (∀ rows u a lda, IsMedian n (fun k => Dist.dist (evec rows (a + k * lda) 1 m) (evec rows u 1 m))
      (mad2 rows n u a lda m)) := by
  refine ⟨nmedian_spec hn _, fun u => ?_, fun rows u a lda => ?_⟩
  · have := nmedian_spec hn (fun k => |u - m (x + k * inc)|)
    simp only [abs_sub_comm u] at this
    simpa only [mad, abs_sub_comm u] using this
  · have := nmedian_spec hn (fun i => Real.sqrt (ssdInc rows (a + i * lda) 1 u 1 m))
    have e : ∀ i, Real.sqrt (ssdInc rows (a + i * lda) 1 u 1 m) =
        Dist.dist (evec rows (a + i * lda) 1 m) (evec rows u 1 m) :=
      fun i => (C36_euclidean rows (a + i * lda) u m).2.2.2.1
    simp only [mad2]
    simp only [e] at this ⊢
    exact this

/-- a concrete median: the hypotheses of the sorting lemma are not needed, any order of data works. -/
example : IsMedian 3 (fun k => ([5, 1, 3] : List ℝ).getD k 0) 3 := by
  constructor <;> norm_num [Finset.filter, Finset.range, Multiset.range, List.range, List.range.loop]

/-- a concrete covariance: two points in the plane around their mean. -/
example : sampleCov ⟨2, 2, 0, 2⟩ 4 (fun a => if a = 2 ∨ a = 3 then 2 else if a = 4 ∨ a = 5 then 1 else 0 : Mem ℚ) 0 1 = 2 := by
  norm_num [sampleCov, Finset.sum_range_succ, DMat.ref]

end Verif.La
