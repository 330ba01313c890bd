import Verif.Prop.Pinv

/-!
# C37: pseudo-inverses from the singular value decomposition

Specification: the four conditions of Moore and Penrose, and the bound on the gain of the damped
inverse.
-/

namespace Verif.Pinv

open Verif.Mat Verif.La Matrix

/-- what is documented about the first `min rows cols` singular values and vectors. -/
structure IsSvd (rows cols : Nat) (M : Nat → Nat → ℝ)
    (d : (Nat → Nat → ℝ) × (Nat → ℝ) × (Nat → Nat → ℝ)) : Prop where
  orthU : ∀ l < min rows cols, ∀ l' < min rows cols,
    ∑ i : Fin rows, d.1 i l * d.1 i l' = if l = l' then 1 else 0
  orthV : ∀ l < min rows cols, ∀ l' < min rows cols,
    ∑ j : Fin cols, d.2.2 l j * d.2.2 l' j = if l = l' then 1 else 0
  eq : ∀ i < rows, ∀ j < cols, M i j = ∑ l : Fin (min rows cols), d.1 i l * d.2.1 l * d.2.2 l j
  nonneg : ∀ l < min rows cols, 0 ≤ d.2.1 l
  anti : ∀ l l', l ≤ l' → l' < min rows cols → d.2.1 l' ≤ d.2.1 l

/-- the conditions of Moore and Penrose. -/
structure Penrose {p q : Nat} (A : Matrix (Fin p) (Fin q) ℝ) (X : Matrix (Fin q) (Fin p) ℝ) : Prop where
  axa : A * X * A = A
  xax : X * A * X = X
  ax : (A * X)ᵀ = A * X
  xa : (X * A)ᵀ = X * A

theorem dger_write (n c as : Nat) (al : ℝ) (x y : Nat → ℝ) (m : Mem ℝ) :
    MatWrite (marr n c as) m (dger n c al x y as n m)
      (fun i j => m ((marr n c as).ref i j) + al * x i * y j) :=
  forN_mat (M := marr n c as) (K := ℝ) le_rfl (fun i j m => m ((marr n c as).ref i j) + al * x i * y j)
    (fun j hj i hi m m' h => by rw [h _ (mat_self (M := marr n c as) le_rfl hi)]) m

theorem svdLoop_spec (rows cols : Nat) (test : ℝ → Prop) (U : Nat → Nat → ℝ) (S : Nat → ℝ)
    (Vt : Nat → Nat → ℝ) (as n i : Nat) (m : Mem ℝ) :
    ∃ i' m', svdLoop rows cols test U S Vt as n i m = (m', i') ∧ i ≤ i' ∧ i' ≤ i + n ∧
      (∀ l, i ≤ l → l < i' → test (S l)) ∧ (i' < i + n → ¬ test (S i')) ∧
      MatWrite (marr cols rows as) m m' (fun a b => m ((marr cols rows as).ref a b) +
        ∑ l ∈ Finset.Ico i i', 1 / S l * Vt l a * U b l) := by
  induction n generalizing i m with
  | zero =>
    exact ⟨i, m, rfl, le_rfl, le_rfl, fun l h1 h2 => absurd h2 (by omega), fun h => absurd h (by omega),
      fun a _ b _ => by simp, fun _ _ => rfl⟩
  | succ n ih =>
    rw [svdLoop]
    by_cases ht : test (S i)
    · rw [if_pos ht]
      have w := dger_write cols rows as (1 / S i) (fun a => Vt i a) (fun b => U b i) m
      obtain ⟨i', m', e, h1, h2, h3, h4, h5⟩ := ih (i + 1)
        (dger cols rows (1 / S i) (fun a => Vt i a) (fun b => U b i) as cols m)
      refine ⟨i', m', e, by omega, by omega, fun l hl hl' => ?_, fun h => h4 (by omega), ?_, ?_⟩
      · by_cases h : l = i
        · rw [h]; exact ht
        · exact h3 l (by omega) hl'
      · intro a ha b hb
        have e1 := h5.1 a ha b hb
        have e2 := w.1 a ha b hb
        simp only at e1 e2
        simp only
        rw [e1, e2, ← Finset.sum_Ioo_add_eq_sum_Ico (show i < i' by omega)]
        have : Finset.Ioo i i' = Finset.Ico (i + 1) i' := by ext x; simp
        rw [this]; ring
      · intro a ha
        rw [h5.2 a ha, w.2 a ha]
    · rw [if_neg ht]
      exact ⟨i, m, rfl, le_rfl, by omega, fun l h1 h2 => absurd h2 (by omega), fun _ => ht,
        fun a _ b _ => by simp, fun _ _ => rfl⟩

theorem dgerSum_spec (rows cols : Nat) (al : Nat → ℝ) (U Vt : Nat → Nat → ℝ) (as n : Nat) (m : Mem ℝ) :
    MatWrite (marr cols rows as) m
      (forN n (fun k m => dger cols rows (al k) (fun a => Vt k a) (fun b => U b k) as cols m) m)
      (fun a b => m ((marr cols rows as).ref a b) + ∑ l ∈ Finset.range n, al l * Vt l a * U b l) := by
  induction n with
  | zero => exact ⟨fun a _ b _ => by simp [forN], fun _ _ => rfl⟩
  | succ n ih =>
    rw [forN_snoc]
    have w := dger_write cols rows as (al n) (fun a => Vt n a) (fun b => U b n)
      (forN n (fun k m => dger cols rows (al k) (fun a => Vt k a) (fun b => U b k) as cols m) m)
    constructor
    · intro a ha b hb
      have e1 := ih.1 a ha b hb
      have e2 := w.1 a ha b hb
      simp only at e1 e2
      simp only
      rw [e2, e1, Finset.sum_range_succ]
      ring
    · intro a ha
      rw [w.2 a ha, ih.2 a ha]

/-- `V diag(F) U^T`. -/
theorem penrose_of {p q r : Nat} (U : Matrix (Fin p) (Fin r) ℝ) (V : Matrix (Fin q) (Fin r) ℝ)
    (D F : Fin r → ℝ) (hU : Uᵀ * U = 1) (hV : Vᵀ * V = 1) (h1 : ∀ l, D l * F l * D l = D l)
    (h2 : ∀ l, F l * D l * F l = F l) :
    Penrose (U * diagonal D * Vᵀ) (V * diagonal F * Uᵀ) := by
  have ax : U * diagonal D * Vᵀ * (V * diagonal F * Uᵀ) = U * diagonal (fun l => D l * F l) * Uᵀ := by
    calc _ = U * diagonal D * (Vᵀ * V) * diagonal F * Uᵀ := by simp only [Matrix.mul_assoc]
      _ = _ := by rw [hV, Matrix.mul_one, Matrix.mul_assoc U, diagonal_mul_diagonal]
  have xa : V * diagonal F * Uᵀ * (U * diagonal D * Vᵀ) = V * diagonal (fun l => F l * D l) * Vᵀ := by
    calc _ = V * diagonal F * (Uᵀ * U) * diagonal D * Vᵀ := by simp only [Matrix.mul_assoc]
      _ = _ := by rw [hU, Matrix.mul_one, Matrix.mul_assoc V, diagonal_mul_diagonal]
  refine ⟨?_, ?_, ?_, ?_⟩
  · rw [ax]
    calc _ = U * diagonal (fun l => D l * F l) * (Uᵀ * U) * diagonal D * Vᵀ := by simp only [Matrix.mul_assoc]
      _ = _ := by
        rw [hU, Matrix.mul_one, Matrix.mul_assoc U, diagonal_mul_diagonal]
        simp only [h1]
  · rw [xa]
    calc _ = V * diagonal (fun l => F l * D l) * (Vᵀ * V) * diagonal F * Uᵀ := by simp only [Matrix.mul_assoc]
      _ = _ := by
        rw [hV, Matrix.mul_one, Matrix.mul_assoc V, diagonal_mul_diagonal]
        simp only [h2]
  · rw [ax]; simp [Matrix.transpose_mul, Matrix.mul_assoc]
  · rw [xa]; simp [Matrix.transpose_mul, Matrix.mul_assoc]

theorem gain_of {p q r : Nat} (U : Matrix (Fin p) (Fin r) ℝ) (V : Matrix (Fin q) (Fin r) ℝ)
    (F : Fin r → ℝ) (hU : Uᵀ * U = 1) (hV : Vᵀ * V = 1) (c : ℝ) (hF : ∀ l, F l * F l ≤ c) (hc : 0 ≤ c)
    (x : Fin p → ℝ) :
    ((V * diagonal F * Uᵀ) *ᵥ x) ⬝ᵥ ((V * diagonal F * Uᵀ) *ᵥ x) ≤ c * (x ⬝ᵥ x) := by
  set z := Uᵀ *ᵥ x with hz
  have e1 : (V * diagonal F * Uᵀ) *ᵥ x = V *ᵥ (diagonal F *ᵥ z) := by
    rw [hz, Matrix.mulVec_mulVec, Matrix.mulVec_mulVec]
  have iso : ∀ {s : Nat} (W : Matrix (Fin s) (Fin r) ℝ), Wᵀ * W = 1 → ∀ w, (W *ᵥ w) ⬝ᵥ (W *ᵥ w) = w ⬝ᵥ w := by
    intro s W hW w
    rw [Matrix.dotProduct_mulVec, ← Matrix.mulVec_transpose, Matrix.mulVec_mulVec, hW, Matrix.one_mulVec]
  rw [e1, iso V hV]
  have e2 : (diagonal F *ᵥ z) ⬝ᵥ (diagonal F *ᵥ z) ≤ c * (z ⬝ᵥ z) := by
    simp only [dotProduct, Matrix.mulVec_diagonal, Finset.mul_sum]
    refine Finset.sum_le_sum (fun l _ => ?_)
    nlinarith [hF l, mul_self_nonneg (z l)]
  have e3 : z ⬝ᵥ z ≤ x ⬝ᵥ x := by
    have h0 : 0 ≤ (x - U *ᵥ z) ⬝ᵥ (x - U *ᵥ z) := Finset.sum_nonneg (fun i _ => mul_self_nonneg _)
    have h1 : x ⬝ᵥ (U *ᵥ z) = z ⬝ᵥ z := by
      rw [Matrix.dotProduct_mulVec, ← Matrix.mulVec_transpose]
    have h2 := iso U hU z
    simp only [sub_dotProduct, dotProduct_sub] at h0
    rw [dotProduct_comm (U *ᵥ z) x, h1, h2] at h0
    linarith
  exact e2.trans (mul_le_mul_of_nonneg_left e3 hc)

theorem svdInput_eq (A : DMat) (ap : Nat) (m : Mem ℝ) (hld : A.ld = A.rows)
    (hT : Outside A ap (A.rows * A.cols)) : ∀ i < A.rows, ∀ j < A.cols, svdInput A ap m i j = m (A.ref i j) := by
  intro i hi j hj
  set P := marr A.rows A.cols ap
  have hd : MatDisjoint A P := outside_disjoint hT le_rfl
  have hcp := forN_mat (M := P) (K := ℝ) le_rfl (fun i j m => m (A.ref i j))
    (fun j hj i hi m m' h => h _ (fun j' hj' i' hi' _ => hd i hi j hj i' hi' j' hj')) m
  unfold svdInput
  rw [hld]
  have := hcp.1 i hi j hj
  simp only [DMat.ref] at this ⊢
  rw [← hld] at this ⊢
  rw [hld] at this ⊢
  exact this

def uMat (U : Nat → Nat → ℝ) (p r : Nat) : Matrix (Fin p) (Fin r) ℝ := fun i l => U i l
def vMat (Vt : Nat → Nat → ℝ) (q r : Nat) : Matrix (Fin q) (Fin r) ℝ := fun j l => Vt l j

/-- a result `sum F_l v_l u_l^T`, as a product of matrices. -/
theorem den_svd (A As : DMat) (U : Nat → Nat → ℝ) (S : Nat → ℝ) (Vt : Nat → Nat → ℝ) (r : Nat) (F : Nat → ℝ)
    (m m' : Mem ℝ) (h1 : A.rows = As.cols) (h2 : A.cols = As.rows)
    (hA : ∀ i < A.rows, ∀ j < A.cols, m (A.ref i j) = ∑ l : Fin r, U i l * S l * Vt l j)
    (hX : ∀ a < As.rows, ∀ b < As.cols, m' (As.ref a b) = ∑ l ∈ Finset.range r, F l * Vt l a * U b l) :
    A.den m = uMat U A.rows r * diagonal (fun l : Fin r => S l) * (vMat Vt A.cols r)ᵀ ∧
    (As.den m').submatrix (Fin.cast h2) (Fin.cast h1) =
      vMat Vt A.cols r * diagonal (fun l : Fin r => F l) * (uMat U A.rows r)ᵀ := by
  constructor
  · ext i j
    rw [Matrix.mul_apply]
    simp only [Matrix.mul_diagonal, Matrix.transpose_apply]
    exact hA i i.2 j j.2
  · ext i j
    rw [Matrix.mul_apply]
    simp only [Matrix.mul_diagonal, Matrix.transpose_apply, Matrix.submatrix_apply]
    refine (hX i (by have := i.2; omega) j (by have := j.2; omega)).trans ?_
    rw [Finset.sum_range]
    exact Finset.sum_congr rfl (fun l _ => by simp only [uMat, vMat]; ring)

theorem svd_orth {rows cols : Nat} {M : Nat → Nat → ℝ} {d} (h : IsSvd rows cols M d) :
    let r := min rows cols
    (uMat d.1 rows r)ᵀ * uMat d.1 rows r = 1 ∧ (vMat d.2.2 cols r)ᵀ * vMat d.2.2 cols r = 1 := by
  intro r
  constructor
  · ext l l'
    rw [Matrix.mul_apply, Matrix.one_apply]
    simp only [Matrix.transpose_apply, Fin.ext_iff]
    exact h.orthU l l.2 l' l'.2
  · ext l l'
    rw [Matrix.mul_apply, Matrix.one_apply]
    simp only [Matrix.transpose_apply, Fin.ext_iff]
    exact h.orthV l l.2 l' l'.2

/-- **C37 (`aa_dmat_pinv`, partial).** For unpadded matrices, when the singular values not above the
tolerance are zero, the result is the Moore-Penrose inverse. (The padded case is wrong, see below.) -/
theorem C37_pinv_partial (svd : Svd) (eps tol : ℝ) (A As : DMat) (ap : Nat) (m : Mem ℝ)
    (h1 : A.rows = As.cols) (h2 : A.cols = As.rows) (hA : A.ld = A.rows) (hAs : As.ld = As.rows)
    (hT : Outside A ap (A.rows * A.cols)) (heps : 0 ≤ eps)
    (hs : IsSvd A.rows A.cols (svdInput A ap m) (svd A.rows A.cols (svdInput A ap m)))
    (htol : ∀ l < min A.rows A.cols,
      (svd A.rows A.cols (svdInput A ap m)).2.1 l ≤
        (if tol < 0 then (max A.rows A.cols : Nat) * (svd A.rows A.cols (svdInput A ap m)).2.1 0 * eps else tol) →
      (svd A.rows A.cols (svdInput A ap m)).2.1 l = 0) :
    ∃ m', pinv svd eps A tol As ap m = some m' ∧
      Penrose (A.den m) ((As.den m').submatrix (Fin.cast h2) (Fin.cast h1)) ∧
      ∀ a, (∀ i < As.rows, ∀ j < As.cols, a ≠ As.ref i j) → m' a = m a := by
  unfold pinv
  rw [if_neg (by simp [h1, h2])]
  generalize hd : svd A.rows A.cols (svdInput A ap m) = d at *
  obtain ⟨U, S, Vt⟩ := d
  simp only at htol ⊢
  generalize htl : (if tol < 0 then ((max A.rows A.cols : Nat) : ℝ) * S 0 * eps else tol) = tl at *
  have htl0 : ∀ l < min A.rows A.cols, S l > tl → S l ≠ 0 := by
    intro l hl hgt h0
    rw [h0] at hgt
    have hS0 : 0 ≤ S 0 := hs.nonneg 0 (by omega)
    have : 0 ≤ tl := by
      rw [← htl]
      split_ifs with h
      · positivity
      · linarith
    linarith
  have hAsE : As = marr A.cols A.rows As.data := by
    obtain ⟨a, b, c, d⟩ := As
    simp only at h1 h2 hAs
    simp [h1, h2, hAs]
  have hz := (C33_matrix (K := ℝ) As (by omega) 0 0 m).2.1
  obtain ⟨i', m', e, -, hi', ht, hnt, w⟩ := svdLoop_spec A.rows A.cols (fun s => s > tl) U S Vt As.data
    (min A.rows A.cols) 0 (mzero As m)
  rw [← hAsE] at w
  rw [e]
  refine ⟨m', rfl, ?_, fun a ha => by rw [w.2 a ha, hz.2 a ha]⟩
  have hX : ∀ a < As.rows, ∀ b < As.cols, m' (As.ref a b) =
      ∑ l ∈ Finset.range (min A.rows A.cols), (if S l > tl then 1 / S l else 0) * Vt l a * U b l := by
    intro a ha b hb
    have e1 := w.1 a ha b hb
    have e2 := hz.1 a ha b hb
    simp only at e1 e2
    rw [e1, e2, zero_add, ← Finset.range_eq_Ico]
    rw [← Finset.sum_subset (Finset.range_subset_range.2 (by omega : i' ≤ min A.rows A.cols))]
    · refine Finset.sum_congr rfl (fun l hl => ?_)
      rw [if_pos (ht l (by omega) (Finset.mem_range.1 hl))]
    · intro l hl hl'
      have hl := Finset.mem_range.1 hl
      have hl' : i' ≤ l := by simpa using hl'
      have h3 := hnt (by omega)
      have h4 := hs.anti i' l hl' hl
      simp only at h4
      rw [if_neg (by simp only [gt_iff_lt, not_lt] at h3 ⊢; exact h4.trans h3)]
      simp
  have hAm : ∀ i < A.rows, ∀ j < A.cols, m (A.ref i j) = ∑ l : Fin (min A.rows A.cols), U i l * S l * Vt l j := by
    intro i hi j hj
    rw [← svdInput_eq A ap m hA hT i hi j hj]
    exact hs.eq i hi j hj
  obtain ⟨d1, d2⟩ := den_svd A As U S Vt (min A.rows A.cols) (fun l => if S l > tl then 1 / S l else 0) m m'
    h1 h2 hAm hX
  rw [d1, d2]
  obtain ⟨o1, o2⟩ := svd_orth hs
  refine penrose_of _ _ _ _ o1 o2 (fun l => ?_) (fun l => ?_)
  · by_cases h : S l > tl
    · have := htl0 l l.2 h
      simp only [if_pos h]; field_simp
    · have := htol l l.2 (not_lt.1 h)
      simp [this]
  · by_cases h : S l > tl
    · have := htl0 l l.2 h
      simp only [if_pos h]; field_simp
    · simp only [if_neg h]; simp

/-- the damped reciprocal of a singular value. -/
noncomputable def deadzone (smin s : ℝ) : ℝ := open Classical in if s ≥ smin then 1 / s else s / (smin * smin)

/-- the result of a damped pseudo-inverse: the gain is at most `1/smin`, and it is the Moore-Penrose
inverse when no singular value is below `smin`. -/
def DeadzoneSpec {p q : Nat} (smin : ℝ) (S : Nat → ℝ) (A : Matrix (Fin p) (Fin q) ℝ)
    (X : Matrix (Fin q) (Fin p) ℝ) : Prop :=
  (∀ x, (X *ᵥ x) ⬝ᵥ (X *ᵥ x) ≤ 1 / (smin * smin) * (x ⬝ᵥ x)) ∧
  ((∀ l < min p q, smin ≤ S l) → Penrose A X)

theorem deadzone_of {p q : Nat} {M : Nat → Nat → ℝ} {d} (smin : ℝ) (h0 : 0 < smin)
    (hs : IsSvd p q M d) (A : Matrix (Fin p) (Fin q) ℝ) (X : Matrix (Fin q) (Fin p) ℝ)
    (hA : A = uMat d.1 p (min p q) * diagonal (fun l : Fin (min p q) => d.2.1 l) * (vMat d.2.2 q (min p q))ᵀ)
    (hX : X = vMat d.2.2 q (min p q) * diagonal (fun l : Fin (min p q) => deadzone smin (d.2.1 l)) *
      (uMat d.1 p (min p q))ᵀ) :
    DeadzoneSpec smin d.2.1 A X := by
  obtain ⟨o1, o2⟩ := svd_orth hs
  constructor
  · intro x
    rw [hX]
    refine gain_of _ _ _ o1 o2 _ (fun l => ?_) (by positivity) x
    have hnn := hs.nonneg l l.2
    unfold deadzone
    split_ifs with h
    · rw [div_mul_div_comm, one_mul]
      exact one_div_le_one_div_of_le (by positivity) (mul_self_le_mul_self h0.le h)
    · push Not at h
      rw [div_mul_div_comm, div_le_div_iff₀ (by positivity) (by positivity)]
      have := mul_self_le_mul_self hnn h.le
      nlinarith [mul_pos h0 h0]
  · intro hl
    rw [hX, hA]
    refine penrose_of _ _ _ _ o1 o2 (fun l => ?_) (fun l => ?_)
    · have h := hl l l.2
      have : d.2.1 l ≠ 0 := by linarith [h0.trans_le h]
      simp only [deadzone, if_pos h]; field_simp
    · have h := hl l l.2
      have : d.2.1 l ≠ 0 := by linarith [h0.trans_le h]
      simp only [deadzone, if_pos h]; field_simp

/-- **C37 (`aa_dmat_dzdpinv`, partial).** For unpadded matrices. -/
theorem C37_dzdpinv_partial (svd : Svd) (smin : ℝ) (h0 : 0 < smin) (A As : DMat) (ap : Nat) (m : Mem ℝ)
    (h1 : A.rows = As.cols) (h2 : A.cols = As.rows) (hA : A.ld = A.rows) (hAs : As.ld = As.rows)
    (hT : Outside A ap (A.rows * A.cols))
    (hs : IsSvd A.rows A.cols (svdInput A ap m) (svd A.rows A.cols (svdInput A ap m))) :
    ∃ m', dzdpinv svd A smin As ap m = some m' ∧
      DeadzoneSpec smin (svd A.rows A.cols (svdInput A ap m)).2.1 (A.den m)
        ((As.den m').submatrix (Fin.cast h2) (Fin.cast h1)) ∧
      ∀ a, (∀ i < As.rows, ∀ j < As.cols, a ≠ As.ref i j) → m' a = m a := by
  unfold dzdpinv
  rw [if_neg (by simp [h1, h2])]
  generalize hd : svd A.rows A.cols (svdInput A ap m) = d at *
  have hsd := hs
  obtain ⟨U, S, Vt⟩ := d
  simp only
  have hAsE : As = marr A.cols A.rows As.data := by
    obtain ⟨a, b, c, d⟩ := As
    simp only at h1 h2 hAs
    simp [h1, h2, hAs]
  have hz := (C33_matrix (K := ℝ) As (by omega) 0 0 m).2.1
  obtain ⟨i', m', e, -, hi', ht, hnt, w⟩ := svdLoop_spec A.rows A.cols (fun s => s ≥ smin) U S Vt As.data
    (min A.rows A.cols) 0 (mzero As m)
  rw [← hAsE] at w
  rw [e]
  have w2 := dgerSum_spec A.rows A.cols (fun k => S (i' + k) / (smin * smin)) (fun a k => U a (i' + k))
    (fun k a => Vt (i' + k) a) As.data (min A.rows A.cols - i') m'
  rw [← hAsE] at w2
  simp only
  refine ⟨_, rfl, ?_, fun a ha => by rw [w2.2 a ha, w.2 a ha, hz.2 a ha]⟩
  set m2 := forN (min A.rows A.cols - i') (fun k m => dger A.cols A.rows (S (i' + k) / (smin * smin))
    (fun a => Vt (i' + k) a) (fun b => U b (i' + k)) As.data A.cols m) m' with hm2
  have hX : ∀ a < As.rows, ∀ b < As.cols, m2 (As.ref a b) =
      ∑ l ∈ Finset.range (min A.rows A.cols), deadzone smin (S l) * Vt l a * U b l := by
    intro a ha b hb
    have e1 := w.1 a ha b hb
    have e2 := hz.1 a ha b hb
    have e3 := w2.1 a ha b hb
    simp only at e1 e2 e3
    rw [e3, e1, e2, zero_add, ← Finset.range_eq_Ico]
    obtain ⟨c, hc⟩ : ∃ c, min A.rows A.cols = i' + c := ⟨min A.rows A.cols - i', by omega⟩
    rw [hc, Nat.add_sub_cancel_left, Finset.sum_range_add]
    congr 1
    · refine Finset.sum_congr rfl (fun l hl => ?_)
      rw [deadzone, if_pos (ht l (by omega) (Finset.mem_range.1 hl))]
    · refine Finset.sum_congr rfl (fun l hl => ?_)
      have hl := Finset.mem_range.1 hl
      have h3 := hnt (by omega)
      have h4 := hs.anti i' (i' + l) (by omega) (by omega)
      simp only at h4
      rw [deadzone, if_neg (by simp only [ge_iff_le, not_le] at h3 ⊢; exact h4.trans_lt h3)]
  have hAm : ∀ i < A.rows, ∀ j < A.cols, m (A.ref i j) = ∑ l : Fin (min A.rows A.cols), U i l * S l * Vt l j := by
    intro i hi j hj
    rw [← svdInput_eq A ap m hA hT i hi j hj]
    exact hs.eq i hi j hj
  obtain ⟨d1, d2⟩ := den_svd A As U S Vt (min A.rows A.cols) (fun l => deadzone smin (S l)) m m2 h1 h2 hAm hX
  exact deadzone_of smin h0 hsd _ _ d1 d2

/-- **C37 (`aa_la_dzdpinv`).** Arrays have no padding, so this holds of every call. -/
theorem C37_dzdpinv_arr (svd : Svd) (s2min : ℝ) (h0 : 0 < s2min) (rows cols a as ap : Nat) (m : Mem ℝ)
    (hT : a + rows * cols ≤ ap ∨ ap + rows * cols ≤ a)
    (hs : IsSvd rows cols (svdInput (marr rows cols a) ap m) (svd rows cols (svdInput (marr rows cols a) ap m))) :
    let m' := dzdpinvArr svd rows cols s2min a as ap m
    DeadzoneSpec (Real.sqrt s2min) (svd rows cols (svdInput (marr rows cols a) ap m)).2.1
      ((marr rows cols a).den m) ((marr cols rows as).den m') ∧
    ∀ x, (x < as ∨ as + rows * cols ≤ x) → m' x = m x := by
  intro m'
  have hm' : m' = dzdpinvArr svd rows cols s2min a as ap m := rfl
  unfold dzdpinvArr at hm'
  generalize hd : svd rows cols (svdInput (marr rows cols a) ap m) = d at *
  have hsd := hs
  obtain ⟨U, S, Vt⟩ := d
  simp only at hm' ⊢
  have hz := elem (K := ℝ) (rows * cols) as (fun _ _ => 0) (fun _ _ _ _ _ => rfl) m
  set m1 := forN (rows * cols) (fun i m => store m (as + i) 0) m
  have w := dgerSum_spec rows cols (fun i => S i / max (S i * S i) s2min) U Vt as (min rows cols) m1
  rw [← hm'] at w
  have hr0 : 0 < Real.sqrt s2min := Real.sqrt_pos.2 h0
  constructor
  · have hX : ∀ x < (marr cols rows as).rows, ∀ b < (marr cols rows as).cols, m' ((marr cols rows as).ref x b) =
        ∑ l ∈ Finset.range (min rows cols), deadzone (Real.sqrt s2min) (S l) * Vt l x * U b l := by
      intro x hx b hb
      have e1 := w.1 x hx b hb
      have hin : as ≤ (marr cols rows as).ref x b ∧ (marr cols rows as).ref x b < as + cols * rows :=
        marr_in (a := as) hx hb
      have e2 := hz.1 ((marr cols rows as).ref x b - as) (by rw [Nat.mul_comm] at hin; simp only; omega)
      simp only [DVec.ref, mul_one, Nat.add_sub_cancel' hin.1] at e2
      simp only at e1
      rw [e1, e2, zero_add]
      refine Finset.sum_congr rfl (fun l hl => ?_)
      have hnn : 0 ≤ S l := hs.nonneg l (Finset.mem_range.1 hl)
      congr 2
      rw [deadzone]
      have hiff : Real.sqrt s2min ≤ S l ↔ s2min ≤ S l * S l := by
        rw [Real.sqrt_le_left hnn, sq]
      by_cases h : s2min ≤ S l * S l
      · rw [if_pos (hiff.2 h), max_eq_left h]
        have : S l ≠ 0 := by rintro e; rw [e] at h; linarith [mul_zero (0 : ℝ)]
        field_simp
      · rw [if_neg (fun hh => h (hiff.1 hh)), max_eq_right (not_le.1 h).le, Real.mul_self_sqrt h0.le]
    have hAm : ∀ i < rows, ∀ j < cols, m ((marr rows cols a).ref i j) =
        ∑ l : Fin (min rows cols), U i l * S l * Vt l j := by
      intro i hi j hj
      rw [← svdInput_eq (marr rows cols a) ap m rfl (fun i hi j hj => by
        have := marr_in (rows := rows) (cols := cols) (a := a) hi hj
        show _ ∨ ap + rows * cols ≤ _
        omega) i hi j hj]
      exact hs.eq i hi j hj
    obtain ⟨d1, d2⟩ := den_svd (marr rows cols a) (marr cols rows as) U S Vt (min rows cols)
      (fun l => deadzone (Real.sqrt s2min) (S l)) m m' rfl rfl hAm hX
    exact deadzone_of (Real.sqrt s2min) hr0 hsd _ _ d1 d2
  · intro x hx
    rw [w.2 x (fun i hi j hj e => ?_)]
    · refine hz.2 x (fun l hl e => ?_)
      simp only [DVec.ref, mul_one] at e
      simp only at hl
      omega
    · have := marr_in (rows := cols) (cols := rows) (a := as) hi hj
      rw [Nat.mul_comm cols rows] at this
      omega

/-- **C37 is violated for a padded operand**: `aa_la_d_svd` reads its unpadded copy with the leading
dimension of the original, so it does not decompose the given matrix. -/
theorem C37_violates_svd_ld : ∃ (A : DMat) (ap : Nat) (m : Mem ℝ), A.rows ≤ A.ld ∧
    Outside A ap (A.ld * A.cols) ∧ ∃ i < A.rows, ∃ j < A.cols, svdInput A ap m i j ≠ m (A.ref i j) := by
  refine ⟨⟨1, 2, 0, 2⟩, 10, fun a => if a = 2 then 1 else 0, by decide, by intro i hi j hj; simp only [DMat.ref] at *; omega,
    0, by decide, 1, by decide, ?_⟩
  simp [svdInput, dlacpy, forN, List.range_succ, store, DMat.ref]

/-- **C37 is violated for a padded result**: `aa_dmat_pinv` writes the result with leading dimension
`As->rows` whatever `As->ld`. For `A = (0 1)^T` the result is not an inverse, for every
decomposition that `dgesdd` may return. -/
theorem C37_violates_pinv_ld : ∃ (A As : DMat) (ap : Nat) (m : Mem ℝ) (h1 : A.rows = As.cols) (h2 : A.cols = As.rows),
    A.ld = A.rows ∧ As.rows ≤ As.ld ∧ MatDisjoint A As ∧
    ∀ (svd : Svd) (eps tol : ℝ), ∃ m', pinv svd eps A tol As ap m = some m' ∧
      ¬ Penrose (A.den m) ((As.den m').submatrix (Fin.cast h2) (Fin.cast h1)) := by
  refine ⟨⟨2, 1, 0, 2⟩, ⟨1, 2, 2, 2⟩, 10, fun a => if a = 1 then 1 else 0, rfl, rfl, rfl, by decide, ?_, ?_⟩
  · intro i hi j hj i' hi' j' hj'
    simp only [DMat.ref] at *
    omega
  · intro svd eps tol
    set A : DMat := ⟨2, 1, 0, 2⟩
    set As : DMat := ⟨1, 2, 2, 2⟩
    set m : Mem ℝ := fun a => if a = 1 then 1 else 0 with hm
    unfold pinv
    rw [if_neg (by simp)]
    generalize svd A.rows A.cols (svdInput A 10 m) = d
    obtain ⟨U, S, Vt⟩ := d
    simp only
    generalize (if tol < 0 then ((max A.rows A.cols : Nat) : ℝ) * S 0 * eps else tol) = tl
    refine ⟨_, rfl, ?_⟩
    have hz := (C33_matrix (K := ℝ) As (by simp [As]) 0 0 m).2.1
    obtain ⟨i', m', e, -, -, -, -, w⟩ := svdLoop_spec A.rows A.cols (fun s => s > tl) U S Vt As.data
      (min A.rows A.cols) 0 (mzero As m)
    rw [e]
    have h4 : m' 4 = 0 := by
      rw [w.2 4 (fun i hi j hj e => by simp only [DMat.ref, A, As] at *; omega)]
      have := hz.1 0 (by simp [As]) 1 (by simp [As])
      simpa [DMat.ref, As] using this
    intro hp
    have hx := hp.axa
    rw [Matrix.mul_assoc] at hx
    have hx := congrFun (congrFun hx (1 : Fin 2)) (0 : Fin 1)
    have e0 : A.den m (0 : Fin 2) (0 : Fin 1) = 0 := by simp [A, hm, DMat.den, DMat.ref]
    have e1 : A.den m (1 : Fin 2) (0 : Fin 1) = 1 := by simp [A, hm, DMat.den, DMat.ref]
    have e2 : ∀ i : Fin 1, (As.den m').submatrix (Fin.cast rfl) (Fin.cast rfl) i (1 : Fin 2) = 0 := by
      intro i
      have : i = 0 := Subsingleton.elim _ _
      subst this
      exact h4
    have e3 : ((As.den m').submatrix (Fin.cast rfl) (Fin.cast rfl) * A.den m) (0 : Fin 1) (0 : Fin 1) = 0 := by
      rw [Matrix.mul_apply]
      refine (Fin.sum_univ_two _).trans ?_
      rw [e0, e2]; simp
    rw [Matrix.mul_apply] at hx
    have e4 := (Fin.sum_univ_one (fun j : Fin 1 => A.den m (1 : Fin 2) j *
      ((As.den m').submatrix (Fin.cast rfl) (Fin.cast rfl) * A.den m) j (0 : Fin 1))).symm.trans hx
    rw [e3, e1] at e4
    simp at e4

/-- a decomposition of `diag(2, 0)`: the hypotheses of `C37_pinv_partial` hold with tolerance `1`, and those
of `C37_dzdpinv_partial` with a singular value below `smin = 1`. -/
example : let A : DMat := ⟨2, 2, 0, 2⟩
    let m : Mem ℝ := fun a => if a = 0 then 2 else 0
    let d : (Nat → Nat → ℝ) × (Nat → ℝ) × (Nat → Nat → ℝ) :=
      (fun i j => if i = j then 1 else 0, fun l => if l = 0 then 2 else 0, fun i j => if i = j then 1 else 0)
    Outside A 10 (A.rows * A.cols) ∧ IsSvd 2 2 (svdInput A 10 m) d ∧
    (∀ l < min 2 2, d.2.1 l ≤ 1 → d.2.1 l = 0) := by
  intro A m d
  have hT : Outside A 10 (A.rows * A.cols) := by
    intro i hi j hj
    simp only [A, DMat.ref] at *
    omega
  refine ⟨hT, ⟨?_, ?_, ?_, ?_, ?_⟩, ?_⟩
  · intro l hl l' hl'
    have : l = 0 ∨ l = 1 := by omega
    have : l' = 0 ∨ l' = 1 := by omega
    rcases ‹l = 0 ∨ l = 1› with rfl | rfl <;> rcases ‹l' = 0 ∨ l' = 1› with rfl | rfl <;>
      simp [d, Fin.sum_univ_two]
  · intro l hl l' hl'
    have : l = 0 ∨ l = 1 := by omega
    have : l' = 0 ∨ l' = 1 := by omega
    rcases ‹l = 0 ∨ l = 1› with rfl | rfl <;> rcases ‹l' = 0 ∨ l' = 1› with rfl | rfl <;>
      simp [d, Fin.sum_univ_two]
  · intro i hi j hj
    rw [svdInput_eq A 10 m rfl hT i hi j hj]
    show _ = ∑ l : Fin 2, _
    have : i = 0 ∨ i = 1 := by omega
    have : j = 0 ∨ j = 1 := by omega
    rcases ‹i = 0 ∨ i = 1› with rfl | rfl <;> rcases ‹j = 0 ∨ j = 1› with rfl | rfl <;>
      simp [d, m, A, DMat.ref, Fin.sum_univ_two]
  · intro l _
    simp only [d]; split_ifs <;> norm_num
  · intro l l' h _
    simp only [d]
    split_ifs <;> first | omega | norm_num
  · intro l _
    simp only [d]
    split_ifs <;> norm_num

end Verif.Pinv
