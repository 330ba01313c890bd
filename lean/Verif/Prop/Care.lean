import Verif.Model.Care
import Verif.Proof.Care
import Verif.Prop.La
import Mathlib.Data.Matrix.ColumnRowPartitioned

/-!
# C116: continuous algebraic Riccati equation by Laub's method

Specification: with `G = B B^T` (`G = B` when `n = m`) and `Q = C^T C` (`Q = C` when `p = m`) the result is
the symmetric solution of `A^T X + X A - X G X + Q = 0` for which `A - G X` is stable. `Stable`,
`Stabilizable` and `Detectable` are defined on Mathlib matrices in `Verif.Proof.Care`.
-/

namespace Verif.Care

open Mat La Matrix Polynomial

/-- the matrix stored in column major order at `a`. -/
def arr (r c a ld : Nat) (s : Mem ℝ) : Matrix (Fin r) (Fin c) ℝ := fun i j => s (a + (ld * j + i))

/-- the regions of `n` doubles at `a` and of `k` doubles at `b` are disjoint. -/
def Apart (a n b k : Nat) : Prop := a + n ≤ b ∨ b + k ≤ a

open Classical in
/-- what LAPACK says of `dgees` with a selection: it overwrites only its arrays; the selected
eigenvalues, with multiplicity, come first; the leading columns of `vs` are orthonormal and span an
invariant subspace on which the eigenvalues are selected ones. -/
structure GeesOk (sel : ℝ → Prop) (N a lda wr wi vs ldvs : Nat) (s s' : Mem ℝ) : Prop where
  frame : ∀ x, (∀ i < N, ∀ j < N, x ≠ a + (lda * j + i) ∧ x ≠ vs + (ldvs * j + i)) →
    (∀ i < N, x ≠ wr + i ∧ x ≠ wi + i) → s' x = s x
  schur : ∃ (d : Nat) (hd : d ≤ N) (T : Matrix (Fin d) (Fin d) ℝ) (V : Matrix (Fin N) (Fin d) ℝ),
    V = (arr N N vs ldvs s').submatrix id (Fin.castLE hd) ∧
    d = (((arr N N a lda s).charpoly.aroots ℂ).filter (fun z => sel z.re)).card ∧
    Vᵀ * V = 1 ∧ arr N N a lda s * V = V * T ∧ ∀ z : ℂ, aeval z T.charpoly = 0 → sel z.re

/-- what LAPACK says of `dgels` with `"T"`: it overwrites only its arrays and solves a regular system. -/
structure GelsOk (n a lda b ldb : Nat) (s s' : Mem ℝ) : Prop where
  frame : ∀ x, (∀ i < n, ∀ j < n, x ≠ a + (lda * j + i) ∧ x ≠ b + (ldb * j + i)) → s' x = s x
  solve : (arr n n a lda s).det ≠ 0 → (arr n n a lda s)ᵀ * arr n n b ldb s' = arr n n b ldb s

/-- the arrays of the call do not overlap. -/
structure Layout (m n p A B C X vs W : Nat) : Prop where
  AW : Apart A (m * m) W (2 * m * (2 * m) + 2 * m + 2 * m)
  BW : Apart B (m * n) W (2 * m * (2 * m) + 2 * m + 2 * m)
  CW : Apart C (p * m) W (2 * m * (2 * m) + 2 * m + 2 * m)
  vW : Apart vs (2 * m * (2 * m)) W (2 * m * (2 * m) + 2 * m + 2 * m)
  vX : Apart vs (2 * m * (2 * m)) X (m * m)
  WX : Apart W (2 * m * (2 * m) + 2 * m + 2 * m) X (m * m)

/-- the quadratic term. -/
noncomputable def gram (m n B : Nat) (s : Mem ℝ) : Matrix (Fin m) (Fin m) ℝ :=
  if n = m then arr m m B m s else arr m n B m s * (arr m n B m s)ᵀ

/-- the constant term. -/
noncomputable def cost (m p C : Nat) (s : Mem ℝ) : Matrix (Fin m) (Fin m) ℝ :=
  if p = m then arr m m C m s else (arr p m C p s)ᵀ * arr p m C p s

theorem area {ld i j c : Nat} (hi : i < ld) (hj : j < c) : ld * j + i < ld * c := by
  have : ld * (j + 1) ≤ ld * c := Nat.mul_le_mul_left _ hj
  rw [Nat.mul_succ] at this
  omega

/-! ## The primitives -/

theorem lacpy_write (r c a lda b ldb : Nat) (h : r ≤ ldb) (s : Mem ℝ)
    (hd : MatDisjoint ⟨r, c, a, lda⟩ ⟨r, c, b, ldb⟩) :
    MatWrite ⟨r, c, b, ldb⟩ s (dlacpy r c a lda b ldb s) (fun i j => s (a + (lda * j + i))) :=
  forN_mat (M := ⟨r, c, b, ldb⟩) h (fun i j s => s (a + (lda * j + i)))
    (fun j hj i hi _ _ hm => hm _ (fun j' hj' i' hi' _ => hd i hi j hj i' hi' j' hj')) s

theorem lascl_write (r c a lda : Nat) (h : r ≤ lda) (s : Mem ℝ) :
    MatWrite ⟨r, c, a, lda⟩ s (lascl (-1) 1 r c a lda s) (fun i j => - s (a + (lda * j + i))) := by
  have := (C33_matrix (K := ℝ) ⟨r, c, a, lda⟩ h (1 / (-1)) 0 s).2.2
  refine ⟨fun i hi j hj => ?_, this.2⟩
  refine (this.1 i hi j hj).trans ?_
  simp [DMat.ref]

theorem gemm_write (ta tb : Bool) (M N Kd a lda b ldb c ldc : Nat) (h : M ≤ ldc) (s : Mem ℝ)
    (ha : ∀ i < M, ∀ k < Kd, ∀ i' < M, ∀ j' < N, opAddr ta a lda i k ≠ c + (ldc * j' + i'))
    (hb : ∀ k < Kd, ∀ j < N, ∀ i' < M, ∀ j' < N, opAddr tb b ldb k j ≠ c + (ldc * j' + i')) :
    MatWrite ⟨M, N, c, ldc⟩ s (dgemm ta tb M N Kd (-1) a lda b ldb 0 c ldc s)
      (fun i j => -∑ k ∈ Finset.range Kd, s (opAddr ta a lda i k) * s (opAddr tb b ldb k j)) := by
  have main := forN_mat (K := ℝ) (M := ⟨M, N, c, ldc⟩) h (fun i j m =>
      -1 * forN Kd (fun k s => s + m (opAddr ta a lda i k) * m (opAddr tb b ldb k j)) 0 +
        0 * m (c + (ldc * j + i))) (fun j hj i hi m m' hm => ?_) s
  · refine ⟨fun i hi j hj => ?_, main.2⟩
    refine (main.1 i hi j hj).trans ?_
    simp only [forN_sum, zero_add, zero_mul, add_zero, neg_one_mul]
  · simp only [forN_sum, zero_add, zero_mul, add_zero]
    congr 1
    refine Finset.sum_congr rfl (fun k hk => ?_)
    have hk' := Finset.mem_range.1 hk
    rw [hm _ (fun j' hj' i' hi' _ => ha i hi k hk' i' hi' j' hj'),
      hm _ (fun j' hj' i' hi' _ => hb k hk' j hj i' hi' j' hj')]

/-- writing twice to the same elements. -/
theorem write_trans {M : DMat} {s s1 s2 : Mem ℝ} {f g : Nat → Nat → ℝ} (h1 : MatWrite M s s1 f)
    (h2 : MatWrite M s1 s2 g) : MatWrite M s s2 g :=
  ⟨h2.1, fun a ha => (h2.2 a ha).trans (h1.2 a ha)⟩

theorem write_congr {M : DMat} {s s1 : Mem ℝ} {f g : Nat → Nat → ℝ} (h1 : MatWrite M s s1 f)
    (h2 : ∀ i < M.rows, ∀ j < M.cols, f i j = g i j) : MatWrite M s s1 g :=
  ⟨fun i hi j hj => (h1.1 i hi j hj).trans (h2 i hi j hj), h1.2⟩

/-! ## The Hamiltonian in memory -/

/-- the block of `H` with first element `(bi, bj)`. -/
def blk (m H bi bj : Nat) : DMat := ⟨m, m, H + (2 * m * bj + bi), 2 * m⟩

theorem blk_ref (m H bi bj i j : Nat) : (blk m H bi bj).ref i j = H + (2 * m * (bj + j) + (bi + i)) := by
  simp only [blk, DMat.ref]; ring

theorem addr_inj {N H i j i' j' : Nat} (hi : i < N) (hi' : i' < N)
    (e : H + (N * j + i) = H + (N * j' + i')) : i = i' ∧ j = j' := by
  obtain ⟨a, b⟩ := mref_inj (M := ⟨N, N, H, N⟩) le_rfl (i := i) (i' := i') (j := j) (j' := j') hi hi' e
  exact ⟨b, a⟩

theorem apart_ne {a k b l x y : Nat} (h : Apart a k b l) (h1 : a ≤ x) (h2 : x < a + k) (h3 : b ≤ y) (h4 : y < b + l) :
    x ≠ y := by
  rcases h with h | h <;> omega

theorem out_blk {m W a k x : Nat} (h : Apart a k W (2 * m * (2 * m) + 2 * m + 2 * m)) (h1 : a ≤ x) (h2 : x < a + k)
    {i j : Nat} (hi : i < 2 * m) (hj : j < 2 * m) : x ≠ W + (2 * m * j + i) :=
  apart_ne h h1 h2 (by omega) (by have := area hi hj; omega)

/-- **the Hamiltonian.** `aa_la_care_laub_hamiltonian` stores `[A, -G; -Q, -A^T]` and nothing else. -/
theorem C116_hamiltonian (m n p A B C X vs W : Nat) (s : Mem ℝ) (hl : Layout m n p A B C X vs W) :
    (∀ i : Fin m, ∀ j : Fin m,
      hamiltonian m n p A B C W s (W + (2 * m * j + i)) = arr m m A m s i j ∧
      hamiltonian m n p A B C W s (W + (2 * m * (m + j) + (m + i))) = - arr m m A m s j i ∧
      hamiltonian m n p A B C W s (W + (2 * m * (m + j) + i)) = - gram m n B s i j ∧
      hamiltonian m n p A B C W s (W + (2 * m * j + (m + i))) = - cost m p C s i j) ∧
    ∀ x, (∀ i < 2 * m, ∀ j < 2 * m, x ≠ W + (2 * m * j + i)) → hamiltonian m n p A B C W s x = s x := by
  -- the four writes
  have hA : ∀ i < m, ∀ j < m, ∀ i' < 2 * m, ∀ j' < 2 * m, A + (m * j + i) ≠ W + (2 * m * j' + i') :=
    fun i hi j hj i' hi' j' hj' => out_blk hl.AW (by omega) (by have := area hi hj; omega) hi' hj'
  have hB : ∀ i < m, ∀ j < n, ∀ i' < 2 * m, ∀ j' < 2 * m, B + (m * j + i) ≠ W + (2 * m * j' + i') :=
    fun i hi j hj i' hi' j' hj' => out_blk hl.BW (by omega) (by have := area hi hj; omega) hi' hj'
  have hC : ∀ i < p, ∀ j < m, ∀ i' < 2 * m, ∀ j' < 2 * m, C + (p * j + i) ≠ W + (2 * m * j' + i') :=
    fun i hi j hj i' hi' j' hj' => out_blk hl.CW (by omega) (by have := area hi hj; omega) hi' hj'
  have inblk : ∀ (bi bj : Nat), bi ≤ m → bj ≤ m → ∀ i < m, ∀ j < m, ∃ i' < 2 * m, ∃ j' < 2 * m,
      (blk m W bi bj).ref i j = W + (2 * m * j' + i') := fun bi bj h1 h2 i hi j hj =>
    ⟨bi + i, by omega, bj + j, by omega, blk_ref ..⟩
  have outblk : ∀ (bi bj : Nat), bi ≤ m → bj ≤ m → ∀ x, (∀ i < 2 * m, ∀ j < 2 * m, x ≠ W + (2 * m * j + i)) →
      ∀ i < m, ∀ j < m, x ≠ (blk m W bi bj).ref i j := by
    intro bi bj h1 h2 x hx i hi j hj
    obtain ⟨i', hi', j', hj', e⟩ := inblk bi bj h1 h2 i hi j hj
    rw [e]; exact hx i' hi' j' hj'
  have w1 : MatWrite (blk m W 0 0) s (dlacpy m m A m W (2 * m) s) (fun i j => s (A + (m * j + i))) := by
    have := lacpy_write m m A m (W + (2 * m * 0 + 0)) (2 * m) (by omega) s (by
      intro i hi j hj i' hi' j' hj'
      exact outblk 0 0 (by omega) (by omega) _ (hA i hi j hj) i' hi' j' hj')
    simpa only [blk, Nat.mul_zero, Nat.add_zero] using this
  generalize hs1 : dlacpy m m A m W (2 * m) s = s1 at w1
  have w2 : MatWrite (blk m W m m) s1 (hamDiag m A W s) (fun i j => - s1 (A + (m * i + j))) := by
    have t := (C36_transpose (K := ℝ) s1).2.1 ⟨m, m, A, m⟩ (blk m W m m) rfl rfl (by simp only [blk]; omega) (by
      intro i hi j hj i' hi' j' hj'
      exact outblk m m le_rfl le_rfl _ (hA i hi j hj) i' hi' j' hj')
    have u := lascl_write m m (W + (2 * m * m + m)) (2 * m) (by omega)
      (transposeLd m m A m (W + (2 * m * m + m)) (2 * m) s1)
    have := write_trans t u
    rw [hamDiag, hs1]
    refine write_congr this (fun i hi j hj => ?_)
    have := t.1 i hi j hj
    simp only [blk, DMat.ref] at this ⊢
    rw [this]
  generalize hs2 : hamDiag m A W s = s2 at w2
  have w3 : MatWrite (blk m W 0 m) s2 (hamB m n B W s2) (fun i j => - (if n = m then s2 (B + (m * j + i))
      else ∑ k ∈ Finset.range n, s2 (B + (m * k + i)) * s2 (B + (m * k + j)))) := by
    rw [hamB]
    split
    · rename_i hn
      subst hn
      have t := lacpy_write n n B n (W + (2 * n * n + 0)) (2 * n) (by omega) s2 (by
        intro i hi j hj i' hi' j' hj'
        exact outblk 0 n (by omega) le_rfl _ (hB i hi j hj) i' hi' j' hj')
      have u := lascl_write n n (W + (2 * n * n + 0)) (2 * n) (by omega)
        (dlacpy n n B n (W + (2 * n * n + 0)) (2 * n) s2)
      refine write_congr (write_trans t u) (fun i hi j hj => ?_)
      have := t.1 i hi j hj
      simp only [DMat.ref] at this ⊢
      rw [this]
    · exact gemm_write false true m m n B m B m (W + (2 * m * m + 0)) (2 * m) (by omega) s2
        (fun i hi k hk i' hi' j' hj' => outblk 0 m (by omega) le_rfl _ (hB i hi k hk) i' hi' j' hj')
        (fun k hk j hj i' hi' j' hj' => outblk 0 m (by omega) le_rfl _ (hB j hj k hk) i' hi' j' hj')
  generalize hs3 : hamB m n B W s2 = s3 at w3
  have w4 : MatWrite (blk m W m 0) s3 (hamC m p C W s3) (fun i j => - (if p = m then s3 (C + (m * j + i))
      else ∑ k ∈ Finset.range p, s3 (C + (p * i + k)) * s3 (C + (p * j + k)))) := by
    rw [hamC]
    split
    · rename_i hn
      subst hn
      have t := lacpy_write p p C p (W + (2 * p * 0 + p)) (2 * p) (by omega) s3 (by
        intro i hi j hj i' hi' j' hj'
        exact outblk p 0 le_rfl (by omega) _ (hC i hi j hj) i' hi' j' hj')
      have u := lascl_write p p (W + (2 * p * 0 + p)) (2 * p) (by omega)
        (dlacpy p p C p (W + (2 * p * 0 + p)) (2 * p) s3)
      refine write_congr (write_trans t u) (fun i hi j hj => ?_)
      have := t.1 i hi j hj
      simp only [DMat.ref] at this ⊢
      rw [this]
    · exact gemm_write true false m m p C p C p (W + (2 * m * 0 + m)) (2 * m) (by omega) s3
        (fun i hi k hk i' hi' j' hj' => outblk m 0 le_rfl (by omega) _ (hC k hk i hi) i' hi' j' hj')
        (fun k hk j hj i' hi' j' hj' => outblk m 0 le_rfl (by omega) _ (hC k hk j hj) i' hi' j' hj')
  have hh : hamiltonian m n p A B C W s = hamC m p C W s3 := by rw [hamiltonian, hs2, hs3]
  rw [hh]
  generalize hamC m p C W s3 = s4 at w4
  -- frames
  have f1 : ∀ x, (∀ i < 2 * m, ∀ j < 2 * m, x ≠ W + (2 * m * j + i)) → s1 x = s x :=
    fun x hx => w1.2 x (outblk 0 0 (by omega) (by omega) x hx)
  have f2 : ∀ x, (∀ i < 2 * m, ∀ j < 2 * m, x ≠ W + (2 * m * j + i)) → s2 x = s x :=
    fun x hx => (w2.2 x (outblk m m (by omega) (by omega) x hx)).trans (f1 x hx)
  have f3 : ∀ x, (∀ i < 2 * m, ∀ j < 2 * m, x ≠ W + (2 * m * j + i)) → s3 x = s x :=
    fun x hx => (w3.2 x (outblk 0 m (by omega) (by omega) x hx)).trans (f2 x hx)
  have f4 : ∀ x, (∀ i < 2 * m, ∀ j < 2 * m, x ≠ W + (2 * m * j + i)) → s4 x = s x :=
    fun x hx => (w4.2 x (outblk m 0 (by omega) (by omega) x hx)).trans (f3 x hx)
  refine ⟨fun i j => ?_, f4⟩
  obtain ⟨i, hi⟩ := i
  obtain ⟨j, hj⟩ := j
  -- an element of one block is not in another
  have dis : ∀ (bi bj ci cj : Nat), (bi = 0 ∨ bi = m) → (bj = 0 ∨ bj = m) → (ci = 0 ∨ ci = m) → (cj = 0 ∨ cj = m) →
      (bi ≠ ci ∨ bj ≠ cj) → ∀ i' < m, ∀ j' < m, (blk m W bi bj).ref i j ≠ (blk m W ci cj).ref i' j' := by
    intro bi bj ci cj h1 h2 h3 h4 h5 i' hi' j' hj' e
    rw [blk_ref, blk_ref] at e
    obtain ⟨e1, e2⟩ := addr_inj (by omega) (by omega) e
    omega
  have r00 : W + (2 * m * j + i) = (blk m W 0 0).ref i j := by rw [blk_ref]; simp
  have rmm : W + (2 * m * (m + j) + (m + i)) = (blk m W m m).ref i j := by rw [blk_ref]
  have r0m : W + (2 * m * (m + j) + i) = (blk m W 0 m).ref i j := by rw [blk_ref]; simp
  have rm0 : W + (2 * m * j + (m + i)) = (blk m W m 0).ref i j := by rw [blk_ref]; simp
  have hm : m ≠ 0 := by omega
  refine ⟨?_, ?_, ?_, ?_⟩
  · show s4 (W + (2 * m * j + i)) = s (A + (m * j + i))
    rw [r00, w4.2 _ (dis 0 0 m 0 (by simp) (by simp) (by simp) (by simp) (by omega)),
      w3.2 _ (dis 0 0 0 m (by simp) (by simp) (by simp) (by simp) (by omega)),
      w2.2 _ (dis 0 0 m m (by simp) (by simp) (by simp) (by simp) (by omega)), w1.1 i hi j hj]
  · show s4 (W + (2 * m * (m + j) + (m + i))) = -s (A + (m * i + j))
    rw [rmm, w4.2 _ (dis m m m 0 (by simp) (by simp) (by simp) (by simp) (by omega)),
      w3.2 _ (dis m m 0 m (by simp) (by simp) (by simp) (by simp) (by omega)), w2.1 i hi j hj]
    beta_reduce
    rw [f1 _ (hA j hj i hi)]
  · show s4 (W + (2 * m * (m + j) + i)) = _
    rw [r0m, w4.2 _ (dis 0 m m 0 (by simp) (by simp) (by simp) (by simp) (by omega)), w3.1 i hi j hj, gram]
    beta_reduce
    split
    · rename_i hn
      rw [f2 _ (hB i hi j (by omega))]; rfl
    · congr 1
      rw [Matrix.mul_apply, Finset.sum_range]
      refine Finset.sum_congr rfl (fun k _ => ?_)
      rw [f2 _ (hB i hi k k.2), f2 _ (hB j hj k k.2)]; rfl
  · show s4 (W + (2 * m * j + (m + i))) = _
    rw [rm0, w4.1 i hi j hj, cost]
    beta_reduce
    split
    · rename_i hn
      rw [f3 _ (by have := hC i (by omega) j hj; rwa [hn] at this)]; rfl
    · congr 1
      rw [Matrix.mul_apply, Finset.sum_range]
      refine Finset.sum_congr rfl (fun k _ => ?_)
      rw [f3 _ (hC k k.2 i hi), f3 _ (hC k k.2 j hj)]; rfl

/-! ## The solution -/

/-- rows `0..m` and `m..2m` of a column of `2m` elements. -/
def halves (m : Nat) : Fin m ⊕ Fin m ≃ Fin (2 * m) := finSumFinEquiv.trans (finCongr (two_mul m).symm)

theorem halves_inl (m : Nat) (i : Fin m) : ((halves m (Sum.inl i) : Fin (2 * m)) : Nat) = i := by simp [halves]
theorem halves_inr (m : Nat) (i : Fin m) : ((halves m (Sum.inr i) : Fin (2 * m)) : Nat) = m + i := by
  simp [halves, Nat.add_comm]

theorem ham_arr (m n p A B C X vs W : Nat) (s : Mem ℝ) (hl : Layout m n p A B C X vs W) :
    (arr (2 * m) (2 * m) W (2 * m) (hamiltonian m n p A B C W s)).submatrix (halves m) (halves m) =
      ham (arr m m A m s) (gram m n B s) (cost m p C s) := by
  have h := (C116_hamiltonian m n p A B C X vs W s hl).1
  ext i j
  rcases i with i | i <;> rcases j with j | j <;>
    simp only [Matrix.submatrix_apply, arr, halves_inl, halves_inr, ham, fromBlocks_apply₁₁, fromBlocks_apply₁₂,
      fromBlocks_apply₂₁, fromBlocks_apply₂₂, Matrix.neg_apply, Matrix.transpose_apply]
  · exact (h i j).1
  · exact (h i j).2.2.1
  · exact (h i j).2.2.2
  · exact (h i j).2.1

/-- LAPACK keeps its promises in the two calls made. -/
structure LapackOk (L : Lapack) (m n p A B C X vs W : Nat) (s : Mem ℝ) : Prop where
  gees : ∀ s1, s1 = hamiltonian m n p A B C W s → ∀ wr wi, wi = W + 2 * m * (2 * m) → wr = wi + 2 * m →
    GeesOk select (2 * m) W (2 * m) wr wi vs (2 * m) s1
      (L.gees select (2 * m) W (2 * m) wr wi vs (2 * m) s1)
  gels : ∀ s2, s2 = transposeLd m m (vs + m) (2 * m) X m (schur L m n p A B C vs W s) →
    GelsOk m vs (2 * m) X m s2 (L.gels m vs (2 * m) X m s2)

/-- **C116 (the solution, partial: under stabilizability and detectability).** -/
theorem C116_care_partial (L : Lapack) (m n p A B C X vs W : Nat) (s : Mem ℝ) (hl : Layout m n p A B C X vs W)
    (hL : LapackOk L m n p A B C X vs W s)
    (hG : (gram m n B s).PosSemidef) (hQ : (cost m p C s).PosSemidef)
    (hs : Stabilizable (arr m m A m s) (gram m n B s)) (hd : Detectable (arr m m A m s) (cost m p C s)) :
    ∃ s', careLaub L m n p A B C X vs W s = (s', 0) ∧
      ∀ Am Gm Qm Xm, Am = arr m m A m s → Gm = gram m n B s → Qm = cost m p C s → Xm = arr m m X m s' →
        Xmᵀ = Xm ∧ Xm.PosSemidef ∧ Amᵀ * Xm + Xm * Am - Xm * Gm * Xm + Qm = 0 ∧ Stable (Am - Gm * Xm) ∧
        ∀ Y, Yᵀ = Y → Amᵀ * Y + Y * Am - Y * Gm * Y + Qm = 0 → Stable (Am - Gm * Y) → Y = Xm := by
  refine ⟨_, rfl, ?_⟩
  rintro Am Gm Qm Xm hAm hGm hQm rfl
  have hGt : Gmᵀ = Gm := by
    rw [← hGm] at hG
    have := hG.1; rwa [Matrix.IsHermitian, Matrix.conjTranspose_eq_transpose_of_trivial] at this
  have hQt : Qmᵀ = Qm := by
    rw [← hQm] at hQ
    have := hQ.1; rwa [Matrix.IsHermitian, Matrix.conjTranspose_eq_transpose_of_trivial] at this
  rw [← hGm] at hG
  rw [← hQm] at hQ
  rw [← hAm, ← hGm] at hs
  rw [← hAm, ← hQm] at hd
  have hH := ham_arr m n p A B C X vs W s hl
  rw [← hAm, ← hGm, ← hQm] at hH
  obtain ⟨_, d, hd2, T, V, hV, hdc, ho, hinv, hT⟩ := hL.gees _ rfl _ _ rfl rfl
  have hgeq : L.gees select (2 * m) W (2 * m) (W + 2 * m * (2 * m) + 2 * m) (W + 2 * m * (2 * m)) vs (2 * m)
      (hamiltonian m n p A B C W s) = schur L m n p A B C vs W s := rfl
  rw [hgeq] at hV
  generalize hM : arr (2 * m) (2 * m) W (2 * m) (hamiltonian m n p A B C W s) = M at *
  have hchar : M.charpoly = (ham Am Gm Qm).charpoly := by
    rw [← hH]
    exact (Matrix.charpoly_reindex (halves m).symm M).symm
  have hdm : d = m := by
    have := ham_count hGt hQt (ham_no_imag hG hQ hs hd)
    rw [hchar] at hdc
    rw [Fintype.card_fin] at this
    rw [hdc]
    refine Eq.trans ?_ this
    congr 1
  subst hdm
  -- split the columns
  obtain ⟨U11, hU11⟩ : ∃ U : Matrix (Fin d) (Fin d) ℝ, U = arr d d vs (2 * d) (schur L d n p A B C vs W s) := ⟨_, rfl⟩
  obtain ⟨U21, hU21⟩ : ∃ U : Matrix (Fin d) (Fin d) ℝ,
    U = arr d d (vs + (2 * d * 0 + d)) (2 * d) (schur L d n p A B C vs W s) := ⟨_, rfl⟩
  have hVs : V.submatrix (halves d) id = fromRows U11 U21 := by
    ext i j
    rcases i with i | i
    · simp only [hV, Matrix.submatrix_apply, fromRows_apply_inl, hU11, arr, halves_inl, id, Fin.val_castLE]
    · simp only [hV, Matrix.submatrix_apply, fromRows_apply_inr, hU21, arr, halves_inr, id, Fin.val_castLE]
      congr 1; ring
  have ho2 : U11ᵀ * U11 + U21ᵀ * U21 = 1 := by
    rw [← fromCols_mul_fromRows, ← transpose_fromRows, ← hVs, ← ho, Matrix.transpose_submatrix,
      Matrix.submatrix_mul_equiv]
    simp
  have hi2 : fromRows (Am * U11 + -Gm * U21) (-Qm * U11 + -Amᵀ * U21) = fromRows (U11 * T) (U21 * T) := by
    have h1 := congrArg (fun N => N.submatrix (halves d) id) hinv
    rw [← Matrix.submatrix_mul_equiv M V (halves d) (halves d) id, hH, hVs, ham, fromBlocks_mul_fromRows] at h1
    rw [h1]
    have : (V * T).submatrix (halves d) id = V.submatrix (halves d) id * T := by
      rw [← Matrix.submatrix_mul_equiv V T (halves d) (Equiv.refl _) id]; simp
    rw [this, hVs, fromRows_mul]
  obtain ⟨r1, r2⟩ := fromRows_ext_iff _ _ _ _ |>.1 hi2
  have laubr := laub hG hQt hs hT ho2 (by rw [← r1]; noncomm_ring) (by rw [← r2]; noncomm_ring)
  -- the transposed copy of `U21` and the solution
  obtain ⟨hdet, hX⟩ := laubr
  have tr := (C36_transpose (K := ℝ) (schur L d n p A B C vs W s)).2.1 ⟨d, d, vs + d, 2 * d⟩ ⟨d, d, X, d⟩ rfl rfl le_rfl
    (by
      intro i hi j hj i' hi' j' hj'
      simp only [DMat.ref]
      have h1 := area (ld := 2 * d) (i := d + i) (j := j) (c := 2 * d) (by simp only at hi; omega) (by simp only at hj; omega)
      have h2 := area (ld := d) (i := i') (j := j') (c := d) hi' hj'
      exact apart_ne hl.vX (by omega) (by omega) (by omega) (by omega))
  have gl := hL.gels _ rfl
  have e0 : vs + (2 * d * 0 + d) = vs + d := by ring
  rw [e0] at hU21
  rw [e0]
  generalize hs2 : transposeLd d d (vs + d) (2 * d) X d (schur L d n p A B C vs W s) = s2 at *
  have u1 : arr d d vs (2 * d) s2 = U11 := by
    rw [hU11]
    ext i j
    refine tr.2 _ (fun i' hi' j' hj' => ?_)
    have h1 := area (ld := 2 * d) (i := i) (j := j) (c := 2 * d) (by omega) (by omega)
    have h2 := area (ld := d) (i := i') (j := j') (c := d) hi' hj'
    simp only [DMat.ref]
    exact apart_ne hl.vX (by omega) (by omega) (by omega) (by omega)
  have u2 : arr d d X d s2 = U21ᵀ := by
    rw [hU21]
    ext i j
    exact tr.1 i i.2 j j.2
  have sol := gl.solve (by rw [u1]; exact hdet)
  rw [u1, u2] at sol
  obtain ⟨x1, x2, x3⟩ := hX _ sol
  exact ⟨x1, care_psd hG hQ x1 x2 x3, x2, x3, fun Y y1 y2 y3 => care_unique hGt y1 y2 x2 y3 x3⟩

/-- **C116 (frame).** The value returned is zero and only `X` and the scratch memory are written. -/
theorem C116_frame (L : Lapack) (m n p A B C X vs W : Nat) (s : Mem ℝ) (hl : Layout m n p A B C X vs W)
    (hL : LapackOk L m n p A B C X vs W s) :
    (careLaub L m n p A B C X vs W s).2 = 0 ∧
    ∀ x, ¬ (X ≤ x ∧ x < X + m * m) → ¬ (vs ≤ x ∧ x < vs + 2 * m * (2 * m)) →
      ¬ (W ≤ x ∧ x < W + (2 * m * (2 * m) + 2 * m + 2 * m)) → (careLaub L m n p A B C X vs W s).1 x = s x := by
  refine ⟨rfl, fun x h1 h2 h3 => ?_⟩
  have nX : ∀ i < m, ∀ j < m, x ≠ X + (m * j + i) := by
    intro i hi j hj e
    have := area hi hj
    omega
  have nv : ∀ i < 2 * m, ∀ j < 2 * m, x ≠ vs + (2 * m * j + i) := by
    intro i hi j hj e
    have := area hi hj
    omega
  have nW : ∀ i < 2 * m, ∀ j < 2 * m, x ≠ W + (2 * m * j + i) := by
    intro i hi j hj e
    have := area hi hj
    omega
  have e0 : vs + (2 * m * 0 + m) = vs + m := by ring
  rw [careLaub, e0]
  refine ((hL.gels _ rfl).frame x (fun i hi j hj => ⟨nv i (by omega) j (by omega), nX i hi j hj⟩)).trans ?_
  have tr := (C36_transpose (K := ℝ) (schur L m n p A B C vs W s)).2.1 ⟨m, m, vs + m, 2 * m⟩ ⟨m, m, X, m⟩ rfl rfl le_rfl
    (by
      intro i hi j hj i' hi' j' hj'
      simp only [DMat.ref]
      have h1 := area (ld := 2 * m) (i := m + i) (j := j) (c := 2 * m) (by simp only at hi; omega) (by simp only at hj; omega)
      have h2 := area (ld := m) (i := i') (j := j') (c := m) hi' hj'
      exact apart_ne hl.vX (by omega) (by omega) (by omega) (by omega))
  refine (tr.2 x (fun i hi j hj => nX i hi j hj)).trans ?_
  refine ((hL.gees _ rfl _ _ rfl rfl).frame x (fun i hi j hj => ⟨nW i hi j hj, nv i hi j hj⟩) (fun i hi => ?_)).trans ?_
  · constructor <;> intro e <;> omega
  · exact (C116_hamiltonian m n p A B C X vs W s hl).2 x nW

/-! ## One state: the example and the failure -/

theorem layout1 : Layout 1 1 1 0 1 2 3 4 8 := by
  constructor <;> simp [Apart]

/-- `A = a`, `G = b`, `Q = c`. -/
def mem1 (a b c : ℝ) : Mem ℝ := store (store (store (fun _ => 0) 0 a) 1 b) 2 c

/-- LAPACK finds the Schur vectors `(u1, u2)`, `(-u2, u1)` and stores `w` in the solution. -/
def lapack1 (u1 u2 w : ℝ) : Lapack where
  gees := fun _ _ _ _ _ _ vs _ s => store (store (store (store s vs u1) (vs + 1) u2) (vs + 2) (-u2)) (vs + 3) u1
  gels := fun _ _ _ b _ s => store s b w

theorem mem1_arr (a b c : ℝ) : arr 1 1 0 1 (mem1 a b c) = !![a] ∧ gram 1 1 1 (mem1 a b c) = !![b] ∧
    cost 1 1 2 (mem1 a b c) = !![c] := by
  refine ⟨?_, ?_, ?_⟩ <;> ext i j <;> fin_cases i <;> fin_cases j <;> simp [arr, gram, cost, mem1, store]

theorem lapack1_ok (a b c u1 u2 w t : ℝ) (hu : u1 * u1 + u2 * u2 = 1) (ht : t < 0)
    (h1 : a * u1 - b * u2 = t * u1) (h2 : -(c * u1) - a * u2 = t * u2) (hw : u1 = 0 ∨ u1 * w = u2)
    (hi : ∀ z : ℂ, aeval z (ham !![a] !![b] !![c]).charpoly = 0 → z.re ≠ 0) :
    LapackOk (lapack1 u1 u2 w) 1 1 1 0 1 2 3 4 8 (mem1 a b c) := by
  obtain ⟨ea, eb, ec⟩ := mem1_arr a b c
  have hH := ham_arr 1 1 1 0 1 2 3 4 8 (mem1 a b c) layout1
  rw [ea, eb, ec] at hH
  constructor
  · rintro _ rfl wr wi rfl rfl
    refine ⟨fun x hx _ => ?_, 1, by norm_num, !![t], _, rfl, ?_, ?_, ?_, ?_⟩
    · have n0 := (hx 0 (by norm_num) 0 (by norm_num)).2
      have n1 := (hx 1 (by norm_num) 0 (by norm_num)).2
      have n2 := (hx 0 (by norm_num) 1 (by norm_num)).2
      have n3 := (hx 1 (by norm_num) 1 (by norm_num)).2
      norm_num at n0 n1 n2 n3
      simp only [lapack1, store]
      rw [if_neg (by omega), if_neg (by omega), if_neg (by omega), if_neg (by omega)]
    · generalize arr (2 * 1) (2 * 1) 8 (2 * 1) (hamiltonian 1 1 1 0 1 2 8 (mem1 a b c)) = M at hH ⊢
      have hchar : M.charpoly = (ham !![a] !![b] !![c]).charpoly := by
        rw [← hH]
        exact (Matrix.charpoly_reindex (halves 1).symm M).symm
      rw [hchar]
      have hs : ∀ r : ℝ, (!![r] : Matrix (Fin 1) (Fin 1) ℝ)ᵀ = !![r] := by
        intro r; ext i j; fin_cases i; fin_cases j; rfl
      have := ham_count (hs b) (hs c) hi
      rw [Fintype.card_fin] at this
      refine this.symm.trans ?_
      congr 1
    · ext i j
      fin_cases i; fin_cases j
      simp [Matrix.mul_apply, arr, lapack1, store]
      exact hu
    · have g : ∀ i j : Fin 1 ⊕ Fin 1, hamiltonian 1 1 1 0 1 2 8 (mem1 a b c)
          (8 + (2 * ((halves 1 j : Fin (2 * 1)) : Nat) + ((halves 1 i : Fin (2 * 1)) : Nat))) =
          ham !![a] !![b] !![c] i j := fun i j => congrFun (congrFun hH i) j
      have g00 := g (Sum.inl 0) (Sum.inl 0)
      have g01 := g (Sum.inl 0) (Sum.inr 0)
      have g10 := g (Sum.inr 0) (Sum.inl 0)
      have g11 := g (Sum.inr 0) (Sum.inr 0)
      simp only [halves_inl, halves_inr, ham, fromBlocks_apply₁₁, fromBlocks_apply₁₂, fromBlocks_apply₂₁,
        fromBlocks_apply₂₂] at g00 g01 g10 g11
      norm_num at g00 g01 g10 g11
      ext i j
      fin_cases i <;> fin_cases j
      · simp [Matrix.mul_apply, arr, lapack1, store, g00, g01]
        linear_combination h1
      · simp [Matrix.mul_apply, arr, lapack1, store, g10, g11]
        linear_combination h2
    · intro z hz
      obtain ⟨v, hv, e⟩ := (root_iff _ _).1 hz
      have e0 := congrFun e 0
      have v0 : v 0 ≠ 0 := by
        intro h; apply hv; funext i; fin_cases i; exact h
      simp [cx, Matrix.mulVec, dotProduct] at e0
      rcases e0 with e0 | e0
      · show z.re < 0
        rw [← e0]; simpa using ht
      · exact absurd e0 v0
  · rintro _ rfl
    refine ⟨fun x hx => ?_, fun hd => ?_⟩
    · have n0 := (hx 0 (by norm_num) 0 (by norm_num)).2
      norm_num at n0
      simp only [lapack1, store]
      rw [if_neg (by omega)]
    · have e1 : arr 1 1 4 (2 * 1) (transposeLd 1 1 (4 + 1) (2 * 1) 3 1 (schur (lapack1 u1 u2 w) 1 1 1 0 1 2 4 8 (mem1 a b c))) =
          !![u1] := by
        ext i j; fin_cases i; fin_cases j
        simp [arr, transposeLd, forN, schur, lapack1, store]
      have e2 : arr 1 1 3 1 (transposeLd 1 1 (4 + 1) (2 * 1) 3 1 (schur (lapack1 u1 u2 w) 1 1 1 0 1 2 4 8 (mem1 a b c))) =
          !![u2] := by
        ext i j; fin_cases i; fin_cases j
        simp [arr, transposeLd, forN, schur, lapack1, store]
      rw [e1, e2]
      rw [e1] at hd
      have hu1 : u1 ≠ 0 := by simpa using hd
      have := hw.resolve_left hu1
      ext i j; fin_cases i; fin_cases j
      simp [Matrix.mul_apply, arr, lapack1, store, this]

/-- the eigenvalues of the Hamiltonian for one state. -/
theorem imag1 (a b c : ℝ) (h : 0 < a * a + b * c) (z : ℂ)
    (hz : aeval z (ham !![a] !![b] !![c]).charpoly = 0) : z.re ≠ 0 := by
  obtain ⟨v, hv, e⟩ := (root_iff _ _).1 hz
  obtain ⟨e1, e2⟩ := ham_eigen e
  have f1 := congrFun e1 0
  have f2 := congrFun e2 0
  simp [cx, Matrix.mulVec, dotProduct] at f1 f2
  intro hr
  have hzz : ∀ w : ℂ, (z * z - ((a * a + b * c : ℝ) : ℂ)) * w = 0 → w = 0 := by
    intro w hw
    rcases mul_eq_zero.1 hw with h0 | h0
    · have := congrArg Complex.re h0
      simp [hr] at this
      nlinarith [mul_self_nonneg z.im]
    · exact h0
  have v0 : v (Sum.inl 0) = 0 := hzz _ (by push_cast; linear_combination -z * f1 - a * f1 + b * f2)
  have v1 : v (Sum.inr 0) = 0 := hzz _ (by push_cast; linear_combination -z * f2 + a * f2 + c * f1)
  apply hv
  funext i
  rcases i with i | i <;> fin_cases i
  · exact v0
  · exact v1

/-- the hypotheses of `C116_care_partial` can be met: `A = 0`, `G = 1`, `Q = 1`, `X = 1`. -/
example : ∃ L, LapackOk L 1 1 1 0 1 2 3 4 8 (mem1 0 1 1) ∧ Layout 1 1 1 0 1 2 3 4 8 ∧
    (gram 1 1 1 (mem1 0 1 1)).PosSemidef ∧ (cost 1 1 2 (mem1 0 1 1)).PosSemidef ∧
    Stabilizable (arr 1 1 0 1 (mem1 0 1 1)) (gram 1 1 1 (mem1 0 1 1)) ∧
    Detectable (arr 1 1 0 1 (mem1 0 1 1)) (cost 1 1 2 (mem1 0 1 1)) ∧
    (careLaub L 1 1 1 0 1 2 3 4 8 (mem1 0 1 1)).1 3 = 1 := by
  obtain ⟨ea, eb, ec⟩ := mem1_arr 0 1 1
  have h2 : (√2 / 2) * (√2 / 2) + (√2 / 2) * (√2 / 2) = 1 := by
    have := Real.mul_self_sqrt (show (0 : ℝ) ≤ 2 by norm_num)
    linarith
  have one : (!![1] : Matrix (Fin 1) (Fin 1) ℝ) = 1 := by
    ext i j; fin_cases i; fin_cases j; rfl
  refine ⟨lapack1 (√2 / 2) (√2 / 2) 1, lapack1_ok 0 1 1 (√2 / 2) (√2 / 2) 1 (-1) h2 (by norm_num) (by ring) (by ring)
    (Or.inr (by ring)) (imag1 0 1 1 (by norm_num)), layout1, ?_, ?_, ?_, ?_, ?_⟩
  · rw [eb, one]; exact Matrix.PosSemidef.one
  · rw [ec, one]; exact Matrix.PosSemidef.one
  · rw [ea, eb, one]; intro z y _ _ h; rwa [cx_one, Matrix.one_mulVec] at h
  · rw [ea, ec, one]; intro z y _ _ h; rwa [cx_one, Matrix.one_mulVec] at h
  · simp [careLaub, lapack1, store]

/-- **C116 (violation).** `A = 1`, `G = 0`, `Q = 0` has no stabilizing solution. LAPACK finds the stable
subspace spanned by `(0, 1)`, the system for `X` is singular, and the call returns zero with an `X` that
is no solution. -/
theorem C116_violates_status : ∃ (L : Lapack) (s : Mem ℝ), Layout 1 1 1 0 1 2 3 4 8 ∧
    LapackOk L 1 1 1 0 1 2 3 4 8 s ∧ (careLaub L 1 1 1 0 1 2 3 4 8 s).2 = 0 ∧
    ∀ Am Gm Qm Xm, Am = arr 1 1 0 1 s → Gm = gram 1 1 1 s → Qm = cost 1 1 2 s →
      Xm = arr 1 1 3 1 (careLaub L 1 1 1 0 1 2 3 4 8 s).1 →
      (¬ ∃ Y, Stable (Am - Gm * Y)) ∧ Amᵀ * Xm + Xm * Am - Xm * Gm * Xm + Qm ≠ 0 := by
  refine ⟨lapack1 0 1 1, mem1 1 0 0, layout1, lapack1_ok 1 0 0 0 1 1 (-1) (by norm_num) (by norm_num) (by norm_num)
    (by norm_num) (Or.inl rfl) (imag1 1 0 0 (by norm_num)), rfl, ?_⟩
  rintro Am Gm Qm Xm rfl rfl rfl rfl
  obtain ⟨ea, eb, ec⟩ := mem1_arr 1 0 0
  have zero : (!![0] : Matrix (Fin 1) (Fin 1) ℝ) = 0 := by
    ext i j; fin_cases i; fin_cases j; rfl
  have one : (!![1] : Matrix (Fin 1) (Fin 1) ℝ) = 1 := by
    ext i j; fin_cases i; fin_cases j; rfl
  rw [ea, eb, ec, zero, one]
  constructor
  · rintro ⟨Y, hY⟩
    rw [zero_mul, sub_zero] at hY
    have := hY 1 ((root_iff _ _).2 ⟨fun _ => 1, fun h => one_ne_zero (congrFun h 0), by rw [cx_one]; simp⟩)
    norm_num at this
  · intro h
    have := congrFun (congrFun h 0) 0
    simp [arr, careLaub, lapack1, store] at this

end Verif.Care
