import Verif.Proof.Pinv

/-!
# C37: pseudo-inverses and projected least squares

Specification: matrices over the reals in Mathlib. `DMat.den` is the matrix held by a view.
-/

namespace Verif.Pinv

open Verif.Mat Verif.La Matrix

/-- the vector held by a view. -/
def vden (v : DVec) (m : Mem ℝ) : Fin v.len → ℝ := fun i => m (v.ref i)

/-- no element of the view is among the `n` addresses from `lo` on. -/
def Outside (M : DMat) (lo n : Nat) : Prop :=
  ∀ i < M.rows, ∀ j < M.cols, M.ref i j < lo ∨ lo + n ≤ M.ref i j

/-- the damped pseudo-inverse. -/
noncomputable def damped {p q : Nat} (A : Matrix (Fin p) (Fin q) ℝ) (k : ℝ) : Matrix (Fin q) (Fin p) ℝ :=
  Aᵀ * (A * Aᵀ + k • (1 : Matrix (Fin p) (Fin p) ℝ))⁻¹

theorem marr_in {rows cols a i j : Nat} (hi : i < rows) (hj : j < cols) :
    a ≤ (marr rows cols a).ref i j ∧ (marr rows cols a).ref i j < a + rows * cols := by
  simp only [DMat.ref]
  obtain ⟨d, rfl⟩ : ∃ d, cols = j + 1 + d := ⟨cols - (j + 1), by omega⟩
  rw [Nat.mul_add, Nat.mul_succ]
  omega

theorem outside_disjoint {M : DMat} {rows cols lo n : Nat} (h : Outside M lo n) (hn : rows * cols ≤ n) :
    MatDisjoint M (marr rows cols lo) := by
  intro i hi j hj i' hi' j' hj' e
  have := marr_in (rows := rows) (cols := cols) (a := lo) hi' hj'
  rcases h i hi j hj with h | h <;> omega

theorem den_congr {M : DMat} {m m' : Mem ℝ} (h : ∀ i < M.rows, ∀ j < M.cols, m' (M.ref i j) = m (M.ref i j)) :
    M.den m' = M.den m := by
  ext i j; exact h i i.2 j j.2

/-- **C37 (`aa_dmat_dpinv`).** For views of any padding, the result is `A^T (A A^T + k I)^-1`, for wide
and for tall matrices; besides the result only the scratch memory changes. -/
theorem C37_dpinv (chol : Mem ℝ → Nat → Nat → ℝ) (A As : DMat) (tmp : Nat) (k : ℝ) (m : Mem ℝ) :
    ((dpinv chol A k As tmp m).isSome ↔ A.rows = As.cols ∧ A.cols = As.rows) ∧
    ∀ (h1 : A.rows = As.cols) (h2 : A.cols = As.rows), 0 < k → A.rows ≤ A.ld → As.rows ≤ As.ld →
      MatDisjoint A As → Outside A tmp (min A.rows A.cols * A.cols) →
      Outside As tmp (min A.rows A.cols * A.cols) →
      ∃ m', dpinv chol A k As tmp m = some (m', 0) ∧
        As.den m' = (damped (A.den m) k).submatrix (Fin.cast h2.symm) (Fin.cast h1.symm) ∧
        ∀ a, (∀ i < As.rows, ∀ j < As.cols, a ≠ As.ref i j) →
          (a < tmp ∨ tmp + min A.rows A.cols * A.cols ≤ a) → m' a = m a := by
  constructor
  · unfold dpinv
    by_cases h : A.rows ≠ As.cols ∨ A.cols ≠ As.rows
    · rw [if_pos h]; simp; omega
    · rw [if_neg h]
      push Not at h
      have hn : ¬ (A.rows ≠ As.cols ∨ A.cols ≠ As.rows) := by omega
      simp only [h.1, h.2, and_self, iff_true]
      split_ifs <;> simp [mtrans, h.1, h.2]
  obtain ⟨rows, cols, a, lda⟩ := A
  obtain ⟨cols', rows', as, ldas⟩ := As
  intro h1 h2 hk hA hAs hd hT hTs
  simp only at h1 h2
  subst h1 h2
  simp only at hA hAs hT hTs ⊢
  have hsub : ∀ M : Matrix (Fin cols) (Fin rows) ℝ, M.submatrix (Fin.cast rfl) (Fin.cast rfl) = M := by
    intro M; ext i j; rfl
  rw [hsub]
  unfold dpinv
  rw [if_neg (by simp)]
  by_cases hrc : rows ≤ cols
  · rw [if_pos hrc]
    rw [min_eq_left hrc] at hT hTs ⊢
    simp only
    set A : DMat := ⟨rows, cols, a, lda⟩
    set As : DMat := ⟨cols, rows, as, ldas⟩
    set P : DMat := marr rows cols tmp
    set B : DMat := ⟨rows, rows, as, ldas⟩
    have hAP : MatDisjoint A P := outside_disjoint hT le_rfl
    have hAsP : MatDisjoint As P := outside_disjoint hTs le_rfl
    have hcp := forN_mat (M := P) (K := ℝ) le_rfl (fun i j m => m (A.ref i j))
      (fun j hj i hi m m' h => h _ (fun j' hj' i' hi' _ => hAP i hi j hj i' hi' j' hj')) m
    have ec : forN P.cols (fun j m => forN P.rows (fun i m => store m (P.ref i j) (m (A.ref i j))) m) m =
      dlacpy rows cols a lda tmp rows m := rfl
    rw [ec] at hcp
    set m1 := dlacpy rows cols a lda tmp rows m
    have hP1 : P.den m1 = A.den m := by
      ext i j
      exact hcp.1 i i.2 j j.2
    have hPB : MatDisjoint P B := by
      intro i hi j hj i' hi' j' hj' e
      exact hAsP i' (lt_of_lt_of_le hi' hrc) j' hj' i hi j hj e.symm
    obtain ⟨m2, e2, v2, f2⟩ := cholSolve_spec chol P B le_rfl (le_trans hrc hAs) rfl rfl hPB k m1
      (posDef_damped (P.den m1) hk)
    have e2' : cholSolve chol rows cols k tmp rows as ldas m1 = (m2, 0) := e2
    rw [e2']
    simp only
    obtain ⟨m3, e3, w3⟩ := (C33_trans P As hAs (fun i hi j hj i' hi' j' hj' e =>
      absurd e.symm (hAsP j' hj' i' hi' i hi j hj)) m2).2 rfl rfl
    have e3' : mtrans (marr rows cols tmp) As m2 = some m3 := e3
    refine ⟨m3, by rw [e3']; rfl, ?_, ?_⟩
    · have : As.den m3 = (P.den m2)ᵀ := by
        ext i j
        exact w3.1 i i.2 j j.2
      rw [this, v2, hP1]
      exact trans_inv _ _
    · intro x hx ht
      have hxP : ∀ i < rows, ∀ j < cols, x ≠ P.ref i j := by
        intro i hi j hj e
        have : tmp ≤ P.ref i j ∧ P.ref i j < tmp + rows * cols := marr_in (a := tmp) hi hj
        omega
      rw [w3.2 x hx, f2 x hxP (fun i hi j hj => hx i (lt_of_lt_of_le hi hrc) j hj), hcp.2 x hxP]
  · rw [if_neg hrc]
    rw [min_eq_right (by omega : cols ≤ rows)] at hT hTs ⊢
    set A : DMat := ⟨rows, cols, a, lda⟩
    set As : DMat := ⟨cols, rows, as, ldas⟩
    set B : DMat := marr cols cols tmp
    have hAsB : MatDisjoint As B := outside_disjoint hTs le_rfl
    obtain ⟨m1, e1, w1⟩ := (C33_trans A As hAs (fun i hi j hj i' hi' j' hj' e =>
      absurd e (hd i hi j hj j' hj' i' hi')) m).2 rfl rfl
    rw [e1]
    have hP1 : As.den m1 = (A.den m)ᵀ := by
      ext i j
      exact w1.1 i i.2 j j.2
    obtain ⟨m2, e2, v2, f2⟩ := cholSolve_spec chol As B hAs le_rfl rfl rfl hAsB k m1
      (posDef_damped (As.den m1) hk)
    refine ⟨m2, congrArg some e2, ?_, ?_⟩
    · rw [v2, hP1, Matrix.transpose_transpose]
      exact push_through (A.den m) hk
    · intro x hx ht
      rw [f2 x hx (fun i hi j hj e => ?_), w1.2 x hx]
      have : tmp ≤ B.ref i j ∧ B.ref i j < tmp + cols * cols := marr_in (a := tmp) hi hj
      omega

/-- a padded `2 x 3` matrix and a padded result meet the hypotheses. -/
example : let A : DMat := ⟨2, 3, 0, 4⟩
    let As : DMat := ⟨3, 2, 12, 5⟩
    A.rows = As.cols ∧ A.cols = As.rows ∧ A.rows ≤ A.ld ∧ As.rows ≤ As.ld ∧ MatDisjoint A As ∧
      Outside A 30 (min A.rows A.cols * A.cols) ∧ Outside As 30 (min A.rows A.cols * A.cols) := by
  refine ⟨rfl, rfl, by decide, by decide, ?_, ?_, ?_⟩
  · intro i hi j hj i' hi' j' hj'
    simp only [DMat.ref] at *
    omega
  · intro i hi j hj
    simp only [DMat.ref] at *
    omega
  · intro i hi j hj
    simp only [DMat.ref] at *
    omega

/-- the damped pseudo-inverse of the `1 x 1` matrix `(2)` with `k = 1` is `2/5`. -/
example : damped (!![2] : Matrix (Fin 1) (Fin 1) ℝ) 1 0 0 = 2 / 5 := by
  simp [damped, Matrix.mul_apply, Matrix.vecMul, dotProduct]
  norm_num

/-- **C37 (`aa_la_dpinv`).** -/
theorem C37_dpinv_arr (chol : Mem ℝ → Nat → Nat → ℝ) (rows cols a as tmp tmp2 : Nat) (k : ℝ) (m : Mem ℝ)
    (hk : 0 < k) (h1 : a + rows * cols ≤ tmp ∨ tmp + rows * cols ≤ a)
    (h2 : as + rows * cols ≤ tmp ∨ tmp + rows * cols ≤ as)
    (h3 : tmp2 + rows * rows ≤ tmp ∨ tmp + rows * cols ≤ tmp2) :
    (marr cols rows as).den (dpinvArr chol rows cols k a as tmp tmp2 m) =
        damped ((marr rows cols a).den m) k ∧
      ∀ x, (x < as ∨ as + rows * cols ≤ x) → (x < tmp ∨ tmp + rows * cols ≤ x) →
        (x < tmp2 ∨ tmp2 + rows * rows ≤ x) → dpinvArr chol rows cols k a as tmp tmp2 m x = m x := by
  unfold dpinvArr
  simp only
  set A : DMat := marr rows cols a
  set As : DMat := marr cols rows as
  set P : DMat := marr rows cols tmp
  set B : DMat := ⟨rows, rows, if rows ≤ cols then as else tmp2, if rows ≤ cols then cols else rows⟩ with hBdef
  have inP : ∀ i < rows, ∀ j < cols, tmp ≤ P.ref i j ∧ P.ref i j < tmp + rows * cols :=
    fun i hi j hj => marr_in (a := tmp) hi hj
  have inAs : ∀ i < cols, ∀ j < rows, as ≤ As.ref i j ∧ As.ref i j < as + rows * cols := by
    intro i hi j hj
    have := marr_in (a := as) hi hj
    rwa [Nat.mul_comm cols rows] at this
  have hB : B.rows ≤ B.ld := by simp only [hBdef]; split_ifs <;> omega
  have inB : ∀ i < rows, ∀ j < rows, (∃ i' < cols, ∃ j' < rows, B.ref i j = As.ref i' j') ∨
      (tmp2 ≤ B.ref i j ∧ B.ref i j < tmp2 + rows * rows) := by
    intro i hi j hj
    by_cases h : rows ≤ cols
    · left; exact ⟨i, by omega, j, hj, by simp only [hBdef, if_pos h]; rfl⟩
    · right; simp only [hBdef, if_neg h]; exact marr_in hi hj
  have hPB : MatDisjoint P B := by
    intro i hi j hj i' hi' j' hj' e
    have hp := inP i hi j hj
    rcases inB i' hi' j' hj' with ⟨i2, hi2, j2, hj2, e2⟩ | hb
    · have := inAs i2 hi2 j2 hj2; omega
    · omega
  have hcp := elem (K := ℝ) (rows * cols) tmp (fun i m => m (a + i))
    (fun i hi m m' h => h _ (fun l hl _ => by omega)) m
  set m1 := forN (rows * cols) (fun i m => store m (tmp + i) (m (a + i))) m with hm1
  have hP1 : P.den m1 = A.den m := by
    ext i j
    have hin := inP i i.2 j j.2
    have := hcp.1 (rows * j + i) (by simp only [P, DMat.ref] at hin; simp only; omega)
    simp only [DVec.ref, mul_one] at this
    exact this
  obtain ⟨m2, e2, v2, f2⟩ := cholSolve_spec chol P B le_rfl hB rfl rfl hPB k m1 (posDef_damped (P.den m1) hk)
  have e2' : cholSolve chol rows cols k tmp rows (if rows ≤ cols then as else tmp2)
      (if rows ≤ cols then cols else rows) m1 = (m2, 0) := e2
  rw [e2']
  have w3 := (C36_transpose (K := ℝ) m2).2.1 P As rfl rfl le_rfl (by
    intro i hi j hj i' hi' j' hj' e
    have := inP i hi j hj
    have := inAs i' hi' j' hj'
    omega)
  constructor
  · have : As.den (transposeLd rows cols tmp rows as cols m2) = (P.den m2)ᵀ := by
      ext i j
      exact w3.1 i i.2 j j.2
    rw [this, v2, hP1]
    exact trans_inv _ _
  · intro x hx ht hb
    have := w3.2 x (fun i hi j hj e => by have := inAs i hi j hj; omega)
    refine this.trans ?_
    rw [f2 x (fun i hi j hj e => by have := inP i hi j hj; omega)]
    · refine hcp.2 x (fun l hl e => ?_)
      simp only [DVec.ref, mul_one] at e
      simp only at hl
      omega
    · intro i hi j hj e
      rcases inB i hi j hj with ⟨i2, hi2, j2, hj2, e2⟩ | hb
      · have := inAs i2 hi2 j2 hj2; omega
      · omega

/-- **C37 (meaning of the damping).** `damped A k x` is the only minimiser of
`|A y - x|^2 + k |y|^2`. -/
theorem C37_damped_minimises {p q : Nat} (A : Matrix (Fin p) (Fin q) ℝ) {k : ℝ} (hk : 0 < k)
    (x : Fin p → ℝ) (z : Fin q → ℝ) (hz : z ≠ damped A k *ᵥ x) :
    let cost := fun y : Fin q → ℝ => (A *ᵥ y - x) ⬝ᵥ (A *ᵥ y - x) + k * (y ⬝ᵥ y)
    cost (damped A k *ᵥ x) < cost z := by
  intro cost
  set y := damped A k *ᵥ x with hy
  have u1 : IsUnit (A * Aᵀ + k • (1 : Matrix (Fin p) (Fin p) ℝ)).det :=
    (Matrix.isUnit_iff_isUnit_det _).1 (posDef_damped A hk).isUnit
  have normal : Aᵀ *ᵥ (A *ᵥ y - x) + k • y = 0 := by
    have e : Aᵀ * A * damped A k + k • damped A k = Aᵀ := by
      calc Aᵀ * A * damped A k + k • damped A k
          = Aᵀ * ((A * Aᵀ + k • (1 : Matrix (Fin p) (Fin p) ℝ)) * (A * Aᵀ + k • (1 : Matrix (Fin p) (Fin p) ℝ))⁻¹) := by
            rw [← Matrix.mul_assoc, Matrix.mul_add, Matrix.add_mul, damped]
            simp [Matrix.mul_assoc]
        _ = Aᵀ := by rw [Matrix.mul_nonsing_inv _ u1, Matrix.mul_one]
    have e2 : (Aᵀ * A * damped A k + k • damped A k) *ᵥ x = Aᵀ *ᵥ x := by rw [e]
    rw [Matrix.add_mulVec, Matrix.smul_mulVec, ← Matrix.mulVec_mulVec, ← Matrix.mulVec_mulVec, ← hy] at e2
    rw [Matrix.mulVec_sub, sub_add_eq_add_sub, e2, sub_self]
  obtain ⟨h, rfl⟩ : ∃ h, z = y + h := ⟨z - y, by simp⟩
  have hne : h ≠ 0 := by rintro rfl; simp at hz
  have cross : (A *ᵥ y - x) ⬝ᵥ (A *ᵥ h) + k * (y ⬝ᵥ h) = 0 := by
    have : (Aᵀ *ᵥ (A *ᵥ y - x) + k • y) ⬝ᵥ h = 0 := by rw [normal]; simp
    rwa [add_dotProduct, Matrix.mulVec_transpose, ← Matrix.dotProduct_mulVec, smul_dotProduct, smul_eq_mul] at this
  have hpos : 0 < h ⬝ᵥ h := by
    have h0 := Matrix.dotProduct_star_self_pos_iff (v := h)
    simpa using h0.2 hne
  have hnn : 0 ≤ (A *ᵥ h) ⬝ᵥ (A *ᵥ h) := by
    exact Finset.sum_nonneg (fun i _ => mul_self_nonneg _)
  have exp : cost (y + h) = cost y + 2 * ((A *ᵥ y - x) ⬝ᵥ (A *ᵥ h) + k * (y ⬝ᵥ h)) +
      ((A *ᵥ h) ⬝ᵥ (A *ᵥ h) + k * (h ⬝ᵥ h)) := by
    simp only [cost]
    have e1 : A *ᵥ (y + h) - x = (A *ᵥ y - x) + A *ᵥ h := by rw [Matrix.mulVec_add]; abel
    rw [e1]
    simp only [dotProduct_add, add_dotProduct]
    rw [dotProduct_comm (A *ᵥ h) (A *ᵥ y - x), dotProduct_comm h y]
    ring
  rw [exp, cross]
  have := mul_pos hk hpos
  linarith

/-! ## Null space projection -/

/-- **C37 (`aa_la_np`).** -/
theorem np_spec (rows cols a as b : Nat) (m : Mem ℝ)
    (h1 : a + rows * cols ≤ b ∨ b + cols * cols ≤ a) (h2 : as + cols * rows ≤ b ∨ b + cols * cols ≤ as) :
    (marr cols cols b).den (np rows cols a as b m) =
      (marr cols rows as).den m * (marr rows cols a).den m - 1 ∧
    ∀ x, (x < b ∨ b + cols * cols ≤ x) → np rows cols a as b m x = m x := by
  set A := marr rows cols a
  set As := marr cols rows as
  set B := marr cols cols b
  have inA : ∀ i < rows, ∀ j < cols, a ≤ A.ref i j ∧ A.ref i j < a + rows * cols := fun i hi j hj => marr_in hi hj
  have inAs : ∀ i < cols, ∀ j < rows, as ≤ As.ref i j ∧ As.ref i j < as + cols * rows := fun i hi j hj => marr_in hi hj
  have inB : ∀ i < cols, ∀ j < cols, b ≤ B.ref i j ∧ B.ref i j < b + cols * cols := fun i hi j hj => marr_in hi hj
  have hg := (C35_gemm_partial false false (1 : ℝ) 0 As A B m (by simp)).2 le_rfl
    (fun i hi j hj i' hi' j' hj' e => by
      have := inAs i hi j hj; have := inB i' hi' j' hj'; omega)
    (fun i hi j hj i' hi' j' hj' e => by
      have := inA i hi j hj; have := inB i' hi' j' hj'; omega)
    (dgemm false false cols cols rows 1 as cols a rows 0 b cols m) (by simp [gemm, gemmOk, A, As, B])
  unfold np
  simp only
  set m1 := dgemm false false cols cols rows 1 as cols a rows 0 b cols m
  have hst := forN_store (K := ℝ) cols (fun i => B.ref i i) (fun i m => m (B.ref i i) - 1)
    (fun x hx y hy e => (mref_inj (M := B) le_rfl hx hy e).1)
    (fun i hi m m' h => by
      rw [h _ (fun l hl hne e => hne ((mref_inj (M := B) le_rfl hi hl e).1.symm))]) m1
  constructor
  · ext i j
    have v := hg.1 i i.2 j j.2
    simp only [one_mul, zero_mul, add_zero, DMat.op, Bool.false_eq_true, if_false, Finset.sum_range] at v
    rw [Matrix.sub_apply, Matrix.mul_apply, Matrix.one_apply]
    simp only [DMat.den]
    by_cases e : i = j
    · subst e
      rw [if_pos rfl]
      refine (hst.1 i i.2).trans ?_
      exact congrArg (· - 1) v
    · rw [if_neg e, sub_zero]
      refine (hst.2 _ (fun l hl e' => ?_)).trans v
      obtain ⟨e1, e2⟩ := mref_inj (M := B) le_rfl i.2 hl e'
      exact e (Fin.ext (by omega))
  · intro x hx
    refine (hst.2 x (fun l hl e => ?_)).trans (hg.2 x (fun i hi j hj e => ?_))
    · have := inB l hl l hl; omega
    · have := inB i hi j hj; omega

/-- **C37 (`aa_la_xlsnp`).** `y = A^* x - (A^* A - I) yp`; hence, when `A^*` is a right inverse of `A`,
`A y = x` whatever the null space motion `yp`. -/
theorem C37_xlsnp (rows cols a as x yp y b : Nat) (m : Mem ℝ)
    (ha : (a + rows * cols ≤ y ∨ y + cols ≤ a) ∧ (a + rows * cols ≤ b ∨ b + cols * cols ≤ a))
    (has : (as + cols * rows ≤ y ∨ y + cols ≤ as) ∧ (as + cols * rows ≤ b ∨ b + cols * cols ≤ as))
    (hx : x + rows ≤ y ∨ y + cols ≤ x)
    (hyp : (yp + cols ≤ y ∨ y + cols ≤ yp) ∧ (yp + cols ≤ b ∨ b + cols * cols ≤ yp))
    (hyb : y + cols ≤ b ∨ b + cols * cols ≤ y) :
    let A := (marr rows cols a).den m
    let As := (marr cols rows as).den m
    let m' := xlsnp rows cols a as x yp y b m
    vden (arr cols y) m' = As *ᵥ vden (arr rows x) m - (As * A - 1) *ᵥ vden (arr cols yp) m ∧
    (∀ c, (c < y ∨ y + cols ≤ c) → (c < b ∨ b + cols * cols ≤ c) → m' c = m c) ∧
    (A * As = 1 → A *ᵥ vden (arr cols y) m' = vden (arr rows x) m) := by
  intro A As m'
  have main : vden (arr cols y) m' = As *ᵥ vden (arr rows x) m - (As * A - 1) *ᵥ vden (arr cols yp) m ∧
      (∀ c, (c < y ∨ y + cols ≤ c) → (c < b ∨ b + cols * cols ≤ c) → m' c = m c) := by
    have w1 := (C36_matrix (K := ℝ) 0 as m).2.2 cols rows x y has.1 hx
    have hm' : m' = xlsnp rows cols a as x yp y b m := rfl
    unfold xlsnp at hm'
    simp only at hm'
    set m1 := mvmul cols rows as x y m
    have fr1 : ∀ c, (c < y ∨ y + cols ≤ c) → m1 c = m c := by
      intro c hc
      refine w1.2 c (fun l hl e => ?_)
      simp only [DVec.ref, mul_one] at e
      simp only at hl
      omega
    obtain ⟨v2, f2⟩ := np_spec rows cols a as b m1 ha.2 has.2
    have eA : (marr rows cols a).den m1 = A := den_congr (fun i hi j hj => fr1 _ (by
      have := marr_in (a := a) (rows := rows) (cols := cols) hi hj; omega))
    have eAs : (marr cols rows as).den m1 = As := den_congr (fun i hi j hj => fr1 _ (by
      have := marr_in (a := as) (rows := cols) (cols := rows) hi hj; omega))
    rw [eA, eAs] at v2
    set m2 := np rows cols a as b m1
    have w3 := (C35_gemv false (-1 : ℝ) 1 (marr cols cols b) (arr cols yp) (arr cols y) m2).2 (by simp)
      (fun i hi j hj l hl e => by
        have := marr_in (a := b) (rows := cols) (cols := cols) hi hj
        simp only [DVec.ref, mul_one] at e
        simp only at hl
        omega)
      (fun l hl k hk e => by
        simp only [DVec.ref, mul_one] at e
        simp only at hl hk
        omega) m' (by simp [gemv, hm'])
    constructor
    · funext i
      have vi : m' (y + i.val * 1) = _ := w3.1 i i.2
      have v1 : m1 (y + i.val * 1) = _ := w1.1 i i.2
      have hy2 : m2 (y + i.val * 1) = m1 (y + i.val * 1) := f2 _ (by have : i.val < cols := i.2; omega)
      show m' (y + i.val * 1) = _
      rw [vi]
      simp only [DVec.ref]
      rw [hy2, v1]
      simp only [Finset.sum_range, DMat.op, Bool.false_eq_true, if_false]
      rw [Pi.sub_apply, Matrix.mulVec, Matrix.mulVec, dotProduct, dotProduct]
      have e1 : ∀ k : Fin cols, m2 ((marr cols cols b).ref i k) * m2 (yp + k.val * 1) =
          (As * A - 1 : Matrix (Fin cols) (Fin cols) ℝ) i k * vden (arr cols yp) m k := by
        intro k
        have := congrFun (congrFun v2 i) k
        simp only [DMat.den] at this
        have hk := k.2
        rw [this, f2 _ (by omega), fr1 _ (by omega)]
        rfl
      rw [Finset.sum_congr rfl (fun k _ => e1 k)]
      have e2 : ∀ k : Fin rows, m ((marr cols rows as).ref i k) * m (x + k.val) =
          As i k * vden (arr rows x) m k := by
        intro k
        simp only [vden, DVec.ref, mul_one]
        rfl
      rw [Finset.sum_congr rfl (fun k _ => e2 k)]
      ring
    · intro c hc hb
      refine (w3.2 c (fun l hl e => ?_)).trans ((f2 c hb).trans (fr1 c hc))
      simp only [DVec.ref, mul_one] at e
      simp only at hl
      omega
  refine ⟨main.1, main.2, fun h => ?_⟩
  rw [main.1, Matrix.mulVec_sub, Matrix.mulVec_mulVec, h, Matrix.one_mulVec, Matrix.mulVec_mulVec,
    Matrix.mul_sub, ← Matrix.mul_assoc, h, Matrix.one_mul, Matrix.mul_one, sub_self, Matrix.zero_mulVec, sub_zero]

/-- `A = (1 0)`, `A^* = (1 0)^T` satisfy the hypothesis of the last part. -/
example : (!![1, 0] : Matrix (Fin 1) (Fin 2) ℝ) * (!![1; 0] : Matrix (Fin 2) (Fin 1) ℝ) = 1 := by
  ext i j; fin_cases i; fin_cases j; simp [Matrix.mul_apply]

/-- **C37 (`aa_la_dls`, `aa_la_dlsnp`).** With the operands and the scratch arrays apart, damped least
squares with and without a null space motion. The scratch arrays are `as`, `tmp`, `tmp2`, `b`. -/
theorem C37_dls (chol : Mem ℝ → Nat → Nat → ℝ) (rows cols a x yp y as tmp tmp2 b : Nat) (k : ℝ) (m : Mem ℝ)
    (hk : 0 < k) (ha : a + rows * cols ≤ as) (hx : x + rows ≤ as) (hyp : yp + cols ≤ as) (hy : y + cols ≤ as)
    (hay : a + rows * cols ≤ y ∨ y + cols ≤ a) (hxy : x + rows ≤ y ∨ y + cols ≤ x)
    (hypy : yp + cols ≤ y ∨ y + cols ≤ yp)
    (h1 : as + rows * cols ≤ tmp) (h2 : tmp + rows * cols ≤ tmp2) (h3 : as + rows * cols ≤ b) :
    let A := (marr rows cols a).den m
    let X := vden (arr rows x) m
    let Yp := vden (arr cols yp) m
    vden (arr cols y) (dls chol rows cols k a x y as tmp tmp2 m) = damped A k *ᵥ X ∧
    vden (arr cols y) (dlsnp chol rows cols k a x yp y as tmp tmp2 b m) =
      damped A k *ᵥ X - (damped A k * A - 1) *ᵥ Yp := by
  intro A X Yp
  obtain ⟨v, f⟩ := C37_dpinv_arr chol rows cols a as tmp tmp2 k m hk (by omega) (by omega) (by omega)
  have hcr : cols * rows = rows * cols := Nat.mul_comm _ _
  set m1 := dpinvArr chol rows cols k a as tmp tmp2 m with hm1
  have lo : ∀ c < as, m1 c = m c := fun c hc => f c (by omega) (by omega) (by omega)
  have eX : vden (arr rows x) m1 = X := by
    funext i
    have : i.val < rows := i.2
    exact lo _ (by simp only [DVec.ref]; omega)
  have eYp : vden (arr cols yp) m1 = Yp := by
    funext i
    have : i.val < cols := i.2
    exact lo _ (by simp only [DVec.ref]; omega)
  have eA : (marr rows cols a).den m1 = A := den_congr (fun i hi j hj => lo _ (by
    have := marr_in (a := a) (rows := rows) (cols := cols) hi hj; omega))
  constructor
  · have w := (C36_matrix (K := ℝ) 0 as m1).2.2 cols rows x y (by omega) (by omega)
    funext i
    refine (w.1 i i.2).trans ?_
    simp only
    rw [← v, ← eX, Finset.sum_range, Matrix.mulVec, dotProduct]
    refine Finset.sum_congr rfl (fun l _ => ?_)
    simp only [vden, DVec.ref, mul_one]
    rfl
  · have w := (C37_xlsnp rows cols a as x yp y b m1 ⟨hay, by omega⟩ ⟨by omega, by omega⟩ (by omega)
      ⟨by omega, by omega⟩ (by omega)).1
    rw [v, eX, eYp, eA] at w
    exact w

/-- **C37 (`aa_rx_wk_dx2dq_np`).** `dq = J^* dx - (J^* J - I) dq_r`; when `J^*` is a right inverse of the
Jacobian, `J dq = dx` whatever `dq_r`. -/
theorem C37_wk_dx2dq_np (rows cols j ldj js ldjs n ldn : Nat) (dx dqr dq : DVec) (m : Mem ℝ)
    (hdx : dx.len = rows) (hdqr : dqr.len = cols) (hdq : dq.len = cols) (hinc : 0 < dq.inc) (hN : cols ≤ ldn) :
    let J : DMat := ⟨rows, cols, j, ldj⟩
    let Js : DMat := ⟨cols, rows, js, ldjs⟩
    let N : DMat := ⟨cols, cols, n, ldn⟩
    (∀ r < rows, ∀ c < cols, ∀ l < cols, J.ref r c ≠ dq.ref l ∧ Js.ref c r ≠ dq.ref l) →
    (∀ r < cols, ∀ c < cols, ∀ l < cols, N.ref r c ≠ dq.ref l ∧ N.ref r c ≠ dqr.ref l) →
    (∀ r < cols, ∀ c < cols, ∀ l < rows, N.ref r c ≠ dx.ref l) →
    (∀ k < rows, ∀ l < cols, dx.ref k ≠ dq.ref l) → (∀ k < cols, ∀ l < cols, dqr.ref k ≠ dq.ref l) →
    MatDisjoint J N → MatDisjoint Js N →
    ∃ m', wkDx2dqNp J Js N dx dqr dq m = some m' ∧
      (fun i : Fin cols => m' (dq.ref i)) = Js.den m *ᵥ (fun k : Fin rows => m (dx.ref k)) -
        (Js.den m * J.den m - 1) *ᵥ (fun k : Fin cols => m (dqr.ref k)) ∧
      (J.den m * Js.den m = 1 →
        J.den m *ᵥ (fun i : Fin cols => m' (dq.ref i)) = fun k : Fin rows => m (dx.ref k)) := by
  intro J Js N hJ hNd hNx hdd hrr hJN hJsN
  have main : ∃ m', wkDx2dqNp J Js N dx dqr dq m = some m' ∧
      (fun i : Fin cols => m' (dq.ref i)) = Js.den m *ᵥ (fun k : Fin rows => m (dx.ref k)) -
        (Js.den m * J.den m - 1) *ᵥ (fun k : Fin cols => m (dqr.ref k)) := by
    unfold wkDx2dqNp
    rw [if_neg (by simp [J, hdx, hdqr, hdq])]
    -- N
    have hg := (C35_gemm_partial false false (1 : ℝ) 0 Js J N m (by simp)).2 hN hJsN hJN
      (dgemm false false cols cols rows 1 js ldjs j ldj 0 n ldn m) (by simp [gemm, gemmOk, J, Js, N])
    have hn : wkGetN J Js 1 N m = some (forN cols (fun i m => store m (N.ref i i) (m (N.ref i i) - 1))
        (dgemm false false cols cols rows 1 js ldjs j ldj 0 n ldn m)) := by
      rw [wkGetN, gemm, if_pos (by simp [gemmOk, J, Js, N]), Option.map_some]
      congr 1
      rw [forPtr_count cols N.data _ (N.ld + 1) (by omega) (by simp only [N]; rw [Nat.mul_succ]; omega)]
      · congr 1
        funext i m
        rw [show N.data + i * (N.ld + 1) = N.ref i i by simp only [DMat.ref]; ring]
      · intro i hi
        simp only [N]
        obtain ⟨d, hd⟩ : ∃ d, cols = i + 1 + d := ⟨cols - (i + 1), by omega⟩
        have : cols * ldn = i * ldn + ldn + d * ldn := by rw [hd]; ring
        rw [Nat.mul_succ]
        omega
    set m1 := dgemm false false cols cols rows 1 js ldjs j ldj 0 n ldn m
    have hst := forN_store (K := ℝ) cols (fun i => N.ref i i) (fun i m => m (N.ref i i) - 1)
      (fun x hx y hy e => (mref_inj (M := N) hN hx hy e).1)
      (fun i hi m m' h => by
        rw [h _ (fun l hl hne e => hne ((mref_inj (M := N) hN hi hl e).1.symm))]) m1
    rw [hn]
    set m2 := forN cols (fun i m => store m (N.ref i i) (m (N.ref i i) - 1)) m1
    have f2 : ∀ c, (∀ r < cols, ∀ s < cols, c ≠ N.ref r s) → m2 c = m c := fun c hc =>
      (hst.2 c (fun l hl => hc l hl l hl)).trans (hg.2 c hc)
    have v2 : ∀ i k : Fin cols, m2 (N.ref i k) = (Js.den m * J.den m - 1 : Matrix (Fin cols) (Fin cols) ℝ) i k := by
      intro i k
      have v := hg.1 i i.2 k k.2
      simp only [one_mul, zero_mul, add_zero, DMat.op, Bool.false_eq_true, if_false, Finset.sum_range] at v
      rw [Matrix.sub_apply, Matrix.mul_apply, Matrix.one_apply]
      simp only [DMat.den]
      by_cases e : i = k
      · subst e
        rw [if_pos rfl]
        refine (hst.1 i i.2).trans ?_
        exact congrArg (· - 1) v
      · rw [if_neg e, sub_zero]
        refine (hst.2 _ (fun l hl e' => ?_)).trans v
        obtain ⟨e1, e2⟩ := mref_inj (M := N) hN i.2 hl e'
        exact e (Fin.ext (by omega))
    -- J* dx
    obtain ⟨m3, e3⟩ := Option.isSome_iff_exists.1 ((C35_gemv false (1 : ℝ) 0 Js dx dq m2).1.2
      (by simp [DMat.opCols, DMat.opRows, Js, hdx, hdq]))
    have w3 := (C35_gemv false (1 : ℝ) 0 Js dx dq m2).2 hinc
      (fun r hr c hc l hl => (hJ c hc r hr l (by omega)).2) (fun k hk l hl => hdd k (by omega) l (by omega)) m3 e3
    -- - N dq_r
    obtain ⟨m4, e4⟩ := Option.isSome_iff_exists.1 ((C35_gemv false (-1 : ℝ) 1 N dqr dq m3).1.2
      (by simp [DMat.opCols, DMat.opRows, N, hdqr, hdq]))
    have w4 := (C35_gemv false (-1 : ℝ) 1 N dqr dq m3).2 hinc
      (fun r hr c hc l hl => (hNd r hr c hc l (by omega)).1) (fun k hk l hl => hrr k (by omega) l (by omega)) m4 e4
    refine ⟨m4, by simp only [Option.bind_eq_bind, Option.bind_some, e3, e4], ?_⟩
    funext i
    rw [w4.1 i (by rw [hdq]; exact i.2)]
    simp only
    rw [w3.1 i (by rw [hdq]; exact i.2)]
    simp only
    rw [hdx, hdqr]
    simp only [Finset.sum_range, DMat.op, Bool.false_eq_true, if_false]
    rw [Pi.sub_apply, Matrix.mulVec, Matrix.mulVec, dotProduct, dotProduct]
    have e1 : ∀ k : Fin cols, m3 (N.ref i k) * m3 (dqr.ref k) =
        (Js.den m * J.den m - 1 : Matrix (Fin cols) (Fin cols) ℝ) i k * m (dqr.ref k) := by
      intro k
      rw [w3.2 _ (fun l hl => (hNd i i.2 k k.2 l (by omega)).1), v2,
        w3.2 _ (fun l hl => hrr k k.2 l (by omega)),
        f2 _ (fun r hr s hs e => (hNd r hr s hs k k.2).2 e.symm)]
    have e2 : ∀ k : Fin rows, m2 (Js.ref i k) * m2 (dx.ref k) = Js.den m i k * m (dx.ref k) := by
      intro k
      rw [f2 _ (fun r hr s hs => hJsN i i.2 k k.2 r hr s hs), f2 _ (fun r hr s hs e => hNx r hr s hs k k.2 e.symm)]
      rfl
    rw [Finset.sum_congr rfl (fun k _ => e1 k), Finset.sum_congr rfl (fun k _ => e2 k)]
    ring
  obtain ⟨m', e, v⟩ := main
  refine ⟨m', e, v, fun h => ?_⟩
  rw [v, Matrix.mulVec_sub, Matrix.mulVec_mulVec, h, Matrix.one_mulVec, Matrix.mulVec_mulVec,
    Matrix.mul_sub, ← Matrix.mul_assoc, h, Matrix.one_mul, Matrix.mul_one, sub_self, Matrix.zero_mulVec, sub_zero]

end Verif.Pinv
