import Verif.Model.Qr
import Verif.Prop.Care
import Mathlib.LinearAlgebra.UnitaryGroup
import Mathlib.LinearAlgebra.Matrix.Charpoly.Basic

/-!
# C118: QR factorization and eigenvalues

Specification: an orthogonal matrix, an upper triangular one and their product; eigenvalues as the roots of
the characteristic polynomial. The contracts of LAPACK are stated with Householder reflections.
-/

namespace Verif.Qr

open Mat Care Matrix

/-- no element below the diagonal. -/
def Upper {m n : Nat} (U : Matrix (Fin m) (Fin n) ℝ) : Prop := ∀ i j, j.val < i.val → U i j = 0

/-- the vector of the reflection `i` stored below the diagonal of column `i`. -/
def hvec (m a ld i : Nat) (s : Mem ℝ) : Fin m → ℝ :=
  fun q => if q.val < i then 0 else if q.val = i then 1 else s (a + (ld * i + q))

/-- the elementary reflection `1 - tau v v^T`. -/
def refl {m : Nat} (v : Fin m → ℝ) (t : ℝ) : Matrix (Fin m) (Fin m) ℝ := 1 - t • vecMulVec v v

/-- the product of the first `k` reflections stored at `a` with factors at `tau`. -/
def qprod (m k a ld tau : Nat) (s : Mem ℝ) : Matrix (Fin m) (Fin m) ℝ :=
  ((List.range k).map (fun i => refl (hvec m a ld i s) (s (tau + i)))).prod

/-- the upper triangle of the array at `a`. -/
def upper (m n a ld : Nat) (s : Mem ℝ) : Matrix (Fin m) (Fin n) ℝ :=
  fun i j => if i.val ≤ j.val then s (a + (ld * j + i)) else 0

/-- what LAPACK says of `dgeqrf`. -/
structure GeqrfOk (m n a lda tau : Nat) (s : Mem ℝ) (r : Mem ℝ × Int) : Prop where
  frame : ∀ x, (∀ i < m, ∀ j < n, x ≠ a + (lda * j + i)) → (∀ k < min m n, x ≠ tau + k) → r.1 x = s x
  orth : r.2 = 0 → qprod m (min m n) a lda tau r.1 ∈ Matrix.orthogonalGroup (Fin m) ℝ
  fact : r.2 = 0 → arr m n a lda s = qprod m (min m n) a lda tau r.1 * upper m n a lda r.1

/-- what LAPACK says of `dorgqr` for a square array. -/
structure OrgqrOk (m k a lda tau : Nat) (s s' : Mem ℝ) : Prop where
  frame : ∀ x, (∀ i < m, ∀ j < m, x ≠ a + (lda * j + i)) → s' x = s x
  gen : arr m m a lda s' = qprod m k a lda tau s

/-- the arrays of the call. -/
structure Layout (m n A lda : Nat) (Q R : Option (Nat × Nat)) (tau Ap : Nat) : Prop where
  hlda : m ≤ lda
  AAp : Apart A (lda * n) Ap (m * n)
  tAp : Apart tau (min m n) Ap (m * n)
  q : ∀ p ld, Q = some (p, ld) → m ≤ ld ∧ Apart p (ld * m) Ap (m * n) ∧ Apart p (ld * m) tau (min m n)
  r : ∀ p ld, R = some (p, ld) → m ≤ ld ∧ Apart p (ld * n) Ap (m * n) ∧ Apart p (ld * n) tau (min m n)
  qr : ∀ p ld p' ld', Q = some (p, ld) → R = some (p', ld') → Apart p (ld * m) p' (ld' * n)

/-! ## Triangular copies -/

theorem store_ite (c : Prop) [Decidable c] (s : Mem ℝ) (x : Nat) (v : ℝ) :
    (if c then store s x v else s) = store s x (if c then v else s x) := by
  split
  · rfl
  · funext y
    simp only [store]
    split
    · next h => rw [h]
    · rfl

/-- a loop storing the elements with `c`. -/
theorem tri_write (r c b ldb : Nat) (h : r ≤ ldb) (cond : Nat → Nat → Bool) (f : Nat → Nat → Mem ℝ → ℝ) (s : Mem ℝ)
    (hf : ∀ i < r, ∀ j < c, ∀ s1 s2 : Mem ℝ, (∀ x, (∀ i < r, ∀ j < c, x ≠ b + (ldb * j + i)) → s1 x = s2 x) → f i j s1 = f i j s2) :
    MatWrite ⟨r, c, b, ldb⟩ s (forN c (fun j s => forN r (fun i s =>
        if cond i j then store s (b + (ldb * j + i)) (f i j s) else s) s) s)
      (fun i j => if cond i j then f i j s else s (b + (ldb * j + i))) := by
  simp only [store_ite]
  exact forN_mat (M := ⟨r, c, b, ldb⟩) h (fun i j s => if cond i j then f i j s else s (b + (ldb * j + i)))
    (fun j hj i hi s1 s2 hm => by
      have e1 : f i j s1 = f i j s2 := hf i hi j hj s1 s2 (fun x hx => hm x (fun j' hj' i' hi' _ => hx i' hi' j' hj'))
      have e2 : s1 (b + (ldb * j + i)) = s2 (b + (ldb * j + i)) := hm _ (mat_self (M := ⟨r, c, b, ldb⟩) h hi)
      rw [e1, e2]) s

theorem setL_write (m n a lda : Nat) (h : m ≤ lda) (s : Mem ℝ) :
    MatWrite ⟨m, n, a, lda⟩ s (setL m n a lda s) (fun i j => if j ≤ i then 0 else s (a + (lda * j + i))) := by
  have := tri_write m n a lda h (fun i j => decide (j ≤ i)) (fun _ _ _ => 0) s (fun _ _ _ _ _ _ _ => rfl)
  simpa [setL] using this

theorem cpyU_write (m n a lda b ldb : Nat) (h : m ≤ ldb) (s : Mem ℝ)
    (hd : ∀ i < m, ∀ j < n, i ≤ j → ∀ i' < m, ∀ j' < n, a + (lda * j + i) ≠ b + (ldb * j' + i')) :
    MatWrite ⟨m, n, b, ldb⟩ s (cpyU m n a lda b ldb s)
      (fun i j => if i ≤ j then s (a + (lda * j + i)) else s (b + (ldb * j + i))) := by
  have := tri_write m n b ldb h (fun i j => decide (i ≤ j)) (fun i j s => if i ≤ j then s (a + (lda * j + i)) else 0) s
    (fun i hi j hj s1 s2 h12 => by
      split
      · next hij => exact h12 _ (hd i hi j hj hij)
      · rfl)
  have e : cpyU m n a lda b ldb s = forN n (fun j s => forN m (fun i s =>
      if decide (i ≤ j) then store s (b + (ldb * j + i)) (if i ≤ j then s (a + (lda * j + i)) else 0) else s) s) s := by
    rw [cpyU]
    congr 1; funext j s; congr 1; funext i s
    by_cases hij : i ≤ j <;> simp [hij]
  rw [e]
  refine write_congr this (fun i _ j _ => ?_)
  by_cases hij : i ≤ j <;> simp [hij]

theorem cpyL_write (m n a lda b ldb : Nat) (h : m ≤ ldb) (s : Mem ℝ)
    (hd : ∀ i < m, ∀ j < n, j ≤ i → ∀ i' < m, ∀ j' < n, a + (lda * j + i) ≠ b + (ldb * j' + i')) :
    MatWrite ⟨m, n, b, ldb⟩ s (cpyL m n a lda b ldb s)
      (fun i j => if j ≤ i then s (a + (lda * j + i)) else s (b + (ldb * j + i))) := by
  have := tri_write m n b ldb h (fun i j => decide (j ≤ i)) (fun i j s => if j ≤ i then s (a + (lda * j + i)) else 0) s
    (fun i hi j hj s1 s2 h12 => by
      split
      · next hij => exact h12 _ (hd i hi j hj hij)
      · rfl)
  have e : cpyL m n a lda b ldb s = forN n (fun j s => forN m (fun i s =>
      if decide (j ≤ i) then store s (b + (ldb * j + i)) (if j ≤ i then s (a + (lda * j + i)) else 0) else s) s) s := by
    rw [cpyL]
    congr 1; funext j s; congr 1; funext i s
    by_cases hij : j ≤ i <;> simp [hij]
  rw [e]
  refine write_congr this (fun i _ j _ => ?_)
  by_cases hij : j ≤ i <;> simp [hij]

theorem forN_id {σ : Type} (k : Nat) (f : Nat → σ → σ) (s : σ) (h : ∀ j < k, ∀ s, f j s = s) : forN k f s = s := by
  induction k with
  | zero => simp [forN]
  | succ k ih => rw [forN_snoc, ih (fun j hj => h j (by omega)), h k (by omega)]

/-- columns beyond the last row have no lower part. -/
theorem cpyL_min (m n a lda b ldb : Nat) (s : Mem ℝ) : cpyL m n a lda b ldb s = cpyL m (min m n) a lda b ldb s := by
  rcases Nat.le_total n m with h | h
  · rw [Nat.min_eq_right h]
  · obtain ⟨d, rfl⟩ := Nat.exists_eq_add_of_le h
    rw [Nat.min_eq_left h, cpyL, forN_add]
    exact forN_id d _ _ (fun j _ s => forN_id m _ _ (fun i hi s => by rw [if_neg (by omega)]))

theorem qprod_congr (m k a ld a' ld' tau : Nat) (s s' : Mem ℝ)
    (h : ∀ i < k, ∀ q < m, i < q → s (a + (ld * i + q)) = s' (a' + (ld' * i + q)))
    (ht : ∀ i < k, s (tau + i) = s' (tau + i)) : qprod m k a ld tau s = qprod m k a' ld' tau s' := by
  rw [qprod, qprod]
  congr 1
  refine List.map_congr_left (fun i hi => ?_)
  have hi : i < k := by simpa using hi
  rw [ht i hi]
  congr 1
  funext q
  rw [hvec, hvec]
  split
  · rfl
  · split
    · rfl
    · exact h i hi q q.2 (by omega)

/-- the factor `R`, and what is left alone. -/
theorem fillR_spec (m n Ap : Nat) (R : Option (Nat × Nat)) (s : Mem ℝ)
    (hr : ∀ p ld, R = some (p, ld) → m ≤ ld ∧ Apart p (ld * n) Ap (m * n)) :
    ∃ s', fillR m n Ap m R s = some s' ∧
      (∀ p ld, R = some (p, ld) → arr m n p ld s' = upper m n Ap m s) ∧
      ∀ x, (∀ p ld, R = some (p, ld) → ∀ i < m, ∀ j < n, x ≠ p + (ld * j + i)) → s' x = s x := by
  rcases R with _ | ⟨p, ld⟩
  · exact ⟨s, rfl, nofun, fun x _ => rfl⟩
  obtain ⟨h1, h2⟩ := hr p ld rfl
  have hin : min m n = 0 ∨ m * (n - 1) + min m n ≤ m * n := by
    by_cases h : n = 0
    · left; omega
    · right
      obtain ⟨k, rfl⟩ := Nat.exists_eq_succ_of_ne_zero h
      simp only [Nat.succ_eq_add_one, Nat.add_sub_cancel, Nat.mul_add, Nat.mul_one]
      omega
  rw [fillR, if_pos hin]
  have w1 := setL_write m n p ld h1 s
  have ap : ∀ i < m, ∀ j < n, ∀ i' < m, ∀ j' < n, Ap + (m * j + i) ≠ p + (ld * j' + i') := by
    intro i hi j hj i' hi' j' hj' e
    have a1 := area (ld := m) hi hj
    have a2 := area (ld := ld) (lt_of_lt_of_le hi' h1) hj'
    exact apart_ne h2 (x := p + (ld * j' + i')) (y := Ap + (m * j + i)) (by omega) (by omega) (by omega) (by omega) e.symm
  have w2 := cpyU_write (min m n) n Ap m p ld (by omega) (setL m n p ld s)
    (fun i hi j hj _ i' hi' j' hj' => ap i (by omega) j hj i' (by omega) j' hj')
  refine ⟨_, rfl, fun p' ld' e => ?_, fun x hx => ?_⟩
  · cases e
    ext i j
    have hi := i.2
    have hj := j.2
    show cpyU (min m n) n Ap m p ld (setL m n p ld s) (p + (ld * j + i)) = _
    have v1 := w1.1 i i.2 j j.2
    by_cases hm : i.val < min m n
    · have v2 := w2.1 i hm j j.2
      refine v2.trans ?_
      beta_reduce
      rw [upper]
      split
      · exact w1.2 _ (fun i' hi' j' hj' => ap i i.2 j j.2 i' hi' j' hj')
      · refine v1.trans ?_
        beta_reduce
        rw [if_pos (by omega)]
    · refine (w2.2 _ (fun i' hi' j' hj' e => ?_)).trans (v1.trans ?_)
      · have hi' : i' < min m n := hi'
        have := addr_inj (N := ld) (H := p) (i := i) (i' := i') (j := j) (j' := j') (by omega) (by omega) e
        omega
      · beta_reduce
        rw [upper, if_pos (by omega), if_neg (by omega)]
  · refine (w2.2 x (fun i hi j hj => ?_)).trans (w1.2 x (fun i hi j hj => hx p ld rfl i hi j hj))
    exact hx p ld rfl i (lt_of_lt_of_le hi (Nat.min_le_left _ _)) j hj

/-- the factor `Q`. -/
theorem fillQ_spec (og : Orgqr) (m n Ap tau : Nat) (Q : Option (Nat × Nat)) (s : Mem ℝ)
    (hq : ∀ p ld, Q = some (p, ld) → m ≤ ld ∧ Apart p (ld * m) Ap (m * n) ∧ Apart p (ld * m) tau (min m n))
    (ho : ∀ p ld s, Q = some (p, ld) → OrgqrOk m (min m n) p ld tau s (og m m (min m n) p ld tau s)) :
    ∃ s', fillQ og m n Ap m tau Q s = some s' ∧
      (∀ p ld, Q = some (p, ld) → arr m m p ld s' = qprod m (min m n) Ap m tau s) ∧
      ∀ x, (∀ p ld, Q = some (p, ld) → ∀ i < m, ∀ j < m, x ≠ p + (ld * j + i)) → s' x = s x := by
  rcases Q with _ | ⟨p, ld⟩
  · exact ⟨s, rfl, nofun, fun x _ => rfl⟩
  obtain ⟨h1, h2, h3⟩ := hq p ld rfl
  have hin : min m n = 0 ∨ m * (min m n - 1) + m ≤ m * n := by
    by_cases h : min m n = 0
    · left; exact h
    · right
      rw [← Nat.mul_succ]
      exact Nat.mul_le_mul_left _ (by omega)
  rw [fillQ, if_pos hin, cpyL_min]
  have ap : ∀ i < m, ∀ j < n, ∀ i' < m, ∀ j' < m, Ap + (m * j + i) ≠ p + (ld * j' + i') := by
    intro i hi j hj i' hi' j' hj' e
    have a1 := area (ld := m) hi hj
    have a2 := area (ld := ld) (lt_of_lt_of_le hi' h1) hj'
    exact apart_ne h2 (x := p + (ld * j' + i')) (y := Ap + (m * j + i)) (by omega) (by omega) (by omega) (by omega) e.symm
  have w := cpyL_write m (min m n) Ap m p ld h1 s
    (fun i hi j hj _ i' hi' j' hj' => ap i hi j (by omega) i' hi' j' (by omega))
  have o := ho p ld (cpyL m (min m n) Ap m p ld s) rfl
  refine ⟨_, rfl, fun p' ld' e => ?_, fun x hx => ?_⟩
  · cases e
    rw [o.gen]
    refine qprod_congr _ _ _ _ _ _ _ _ _ (fun i hi q hq hiq => ?_) (fun i hi => ?_)
    · refine (w.1 q hq i hi).trans ?_
      beta_reduce
      rw [if_pos (by omega)]
    · refine w.2 _ (fun i' hi' j' hj' e => ?_)
      have hj' : j' < min m n := hj'
      have a2 := area (ld := ld) (i := i') (j := j') (c := m) (lt_of_lt_of_le hi' h1) (by omega)
      have e : tau + i = p + (ld * j' + i') := e
      exact apart_ne h3 (x := p + (ld * j' + i')) (y := tau + i) (by omega) (by omega) (by omega) (by omega) e.symm
  · refine (o.frame x (hx p ld rfl)).trans (w.2 x (fun i hi j hj => ?_))
    have hj : j < min m n := hj
    exact hx p ld rfl i hi j (by omega)

/-! ## C118 -/

/-- **C118 (QR, partial: packed input).** When the leading dimension of `A` is its number of rows, `A = Q R`
with `Q` orthogonal and `R` upper triangular; null pointers skip a factor. Only the factors and scratch
memory change. -/
theorem C118_qr_partial (gf : Geqrf) (og : Orgqr) (m n A : Nat) (Q R : Option (Nat × Nat)) (tau Ap : Nat) (s : Mem ℝ)
    (hl : Layout m n A m Q R tau Ap)
    (hg : ∀ s1, s1 = Lls.dup m n A m Ap s → GeqrfOk m n Ap m tau s1 (gf m n Ap m tau s1))
    (ho : ∀ p ld s, Q = some (p, ld) → OrgqrOk m (min m n) p ld tau s (og m m (min m n) p ld tau s)) :
    ∃ s' info, qr gf og m n A m Q R tau Ap s = some (s', info) ∧
      (info = 0 → ∃ (P : Matrix (Fin m) (Fin m) ℝ) (U : Matrix (Fin m) (Fin n) ℝ),
        P ∈ Matrix.orthogonalGroup (Fin m) ℝ ∧ Upper U ∧ arr m n A m s = P * U ∧
        (∀ p ld, Q = some (p, ld) → arr m m p ld s' = P) ∧ ∀ p ld, R = some (p, ld) → arr m n p ld s' = U) ∧
      ∀ x, ¬ (tau ≤ x ∧ x < tau + min m n) → ¬ (Ap ≤ x ∧ x < Ap + m * n) →
        (∀ p ld, Q = some (p, ld) → ∀ i < m, ∀ j < m, x ≠ p + (ld * j + i)) →
        (∀ p ld, R = some (p, ld) → ∀ i < m, ∀ j < n, x ≠ p + (ld * j + i)) → s' x = s x := by
  have ar : ∀ i < m, ∀ j < n, m * j + i < m * n := fun i hi j hj => area hi hj
  have w0 := lacpy_write m n A m Ap m le_rfl s (by
    intro i hi j hj i' hi' j' hj'
    have := ar i hi j hj
    have := ar i' hi' j' hj'
    simp only [DMat.ref]
    exact apart_ne hl.AAp (by omega) (by omega) (by omega) (by omega))
  have hA : arr m n Ap m (Lls.dup m n A m Ap s) = arr m n A m s := by
    ext i j; exact w0.1 i i.2 j j.2
  have g := hg _ rfl
  obtain ⟨s1, e1, r1, f1⟩ := fillR_spec m n Ap R (gf m n Ap m tau (Lls.dup m n A m Ap s)).1
    (fun p ld h => ⟨(hl.r p ld h).1, (hl.r p ld h).2.1⟩)
  obtain ⟨s2, e2, q2, f2⟩ := fillQ_spec og m n Ap tau Q s1 hl.q ho
  refine ⟨s2, (gf m n Ap m tau (Lls.dup m n A m Ap s)).2, by rw [qr, e1]; simp only; rw [e2], fun hi => ?_, fun x h1 h2 h3 h4 => ?_⟩
  · refine ⟨_, upper m n Ap m (gf m n Ap m tau (Lls.dup m n A m Ap s)).1, g.orth hi, fun i j h => ?_, ?_, fun p ld e => ?_, fun p ld e => ?_⟩
    · rw [upper, if_neg (by omega)]
    · rw [← g.fact hi, hA]
    · rw [q2 p ld e]
      refine qprod_congr _ _ _ _ _ _ _ _ _ (fun i hi q hq _ => f1 _ (fun p' ld' e' i' hi' j' hj' => ?_))
        (fun i hi => f1 _ (fun p' ld' e' i' hi' j' hj' => ?_))
      · obtain ⟨a1, a2, _⟩ := hl.r p' ld' e'
        have := area (ld := ld') (lt_of_lt_of_le hi' a1) hj'
        have := ar q hq i (by omega)
        exact fun e => apart_ne a2 (by omega) (by omega) (by omega) (by omega) e.symm
      · obtain ⟨a1, _, a2⟩ := hl.r p' ld' e'
        have := area (ld := ld') (lt_of_lt_of_le hi' a1) hj'
        exact fun e => apart_ne a2 (by omega) (by omega) (by omega) (by omega) e.symm
    · rw [← r1 p ld e]
      ext i j
      refine f2 _ (fun p' ld' e' i' hi' j' hj' => ?_)
      have b1 := (hl.q p' ld' e').1
      have b2 := (hl.r p ld e).1
      have := area (ld := ld') (lt_of_lt_of_le hi' b1) hj'
      have := area (ld := ld) (lt_of_lt_of_le i.2 b2) j.2
      exact fun e0 => apart_ne (hl.qr p' ld' p ld e' e) (by omega) (by omega) (by omega) (by omega) e0.symm
  · refine (f2 x h3).trans ((f1 x h4).trans ((g.frame x (fun i hi j hj e => h2 ?_) (fun k hk e => h1 (by omega))).trans
      (w0.2 x (fun i hi j hj e => h2 ?_))))
    · have := ar i hi j hj; omega
    · have := ar i hi j hj; simp only [DMat.ref] at e; omega

/-- two products of orthogonal matrices with the same value have the same Gram matrix. -/
theorem gram {m n : Nat} {M U V : Matrix (Fin m) (Fin n) ℝ} {P P' : Matrix (Fin m) (Fin m) ℝ}
    (hP : P ∈ Matrix.orthogonalGroup (Fin m) ℝ) (hP' : P' ∈ Matrix.orthogonalGroup (Fin m) ℝ)
    (h : M = P * U) (h' : M = P' * V) : Uᵀ * U = Vᵀ * V := by
  have e1 : Pᵀ * P = 1 := by simpa [Matrix.star_eq_conjTranspose] using (Matrix.mem_orthogonalGroup_iff' (Fin m) ℝ).1 hP
  have e2 : P'ᵀ * P' = 1 := by simpa [Matrix.star_eq_conjTranspose] using (Matrix.mem_orthogonalGroup_iff' (Fin m) ℝ).1 hP'
  have a : Mᵀ * M = Uᵀ * U := by
    rw [h, Matrix.transpose_mul, Matrix.mul_assoc, ← Matrix.mul_assoc Pᵀ, e1, Matrix.one_mul]
  have b : Mᵀ * M = Vᵀ * V := by
    rw [h', Matrix.transpose_mul, Matrix.mul_assoc, ← Matrix.mul_assoc P'ᵀ, e2, Matrix.one_mul]
  rw [← a, b]

/-- the array with two equal columns `(1, 0, 0)` and leading dimension 4. -/
noncomputable def ex4 : Mem ℝ := fun a => if a = 0 then 1 else if a = 4 then 1 else 0

/-- **C118 is violated** for a leading dimension larger than the number of rows: whatever LAPACK returns,
the `R` computed is no factor of `A`. -/
theorem C118_violates_lda (gf : Geqrf) (og : Orgqr)
    (hg : ∀ s1, s1 = Lls.dup 3 2 0 4 30 ex4 → GeqrfOk 3 2 30 3 20 s1 (gf 3 2 30 3 20 s1) ∧ (gf 3 2 30 3 20 s1).2 = 0) :
    Layout 3 2 0 4 none (some (10, 3)) 20 30 ∧
    ∃ s', qr gf og 3 2 0 4 none (some (10, 3)) 20 30 ex4 = some (s', 0) ∧
      ¬ ∃ P ∈ Matrix.orthogonalGroup (Fin 3) ℝ, arr 3 2 0 4 ex4 = P * arr 3 2 10 3 s' := by
  refine ⟨⟨by norm_num, by simp [Apart], by simp [Apart], nofun, ?_, nofun⟩, ?_⟩
  · intro p ld e; cases e; simp [Apart]
  obtain ⟨g, hi⟩ := hg _ rfl
  have w0 := lacpy_write 3 2 0 4 30 3 le_rfl ex4 (by
    intro i hi j hj i' hi' j' hj'
    simp only [DMat.ref] at *
    omega)
  have hA : arr 3 2 30 3 (Lls.dup 3 2 0 4 30 ex4) = arr 3 2 0 4 ex4 := by
    ext i j; exact w0.1 i i.2 j j.2
  have h1 := g.fact hi
  rw [hA] at h1
  have h2 := g.orth hi
  have e0 : qr gf og 3 2 0 4 none (some (10, 3)) 20 30 ex4 =
      some (cpyU 2 2 30 4 10 3 (setL 3 2 10 3 (gf 3 2 30 3 20 (Lls.dup 3 2 0 4 30 ex4)).1),
        (gf 3 2 30 3 20 (Lls.dup 3 2 0 4 30 ex4)).2) := rfl
  rw [e0, hi]
  refine ⟨_, rfl, ?_⟩
  rintro ⟨P, hP, e⟩
  generalize (gf 3 2 30 3 20 (Lls.dup 3 2 0 4 30 ex4)).1 = r at *
  have w1 := setL_write 3 2 10 3 le_rfl r
  have w2 := cpyU_write 2 2 30 4 10 3 (by norm_num) (setL 3 2 10 3 r) (by
    intro i hi j hj _ i' hi' j' hj'; omega)
  have G1 := gram h2 hP h1 e
  have G2 := gram h2 (one_mem _) h1 (Matrix.one_mul _).symm
  generalize hs : cpyU 2 2 30 4 10 3 (setL 3 2 10 3 r) = t at *
  have v00 : t 10 = r 30 := by
    refine (w2.1 0 (by norm_num) 0 (by norm_num)).trans ?_
    simp only [le_refl, if_true]
    exact w1.2 30 (by intro i hi j hj; simp only [DMat.ref] at *; omega)
  have v01 : t 13 = r 34 := by
    refine (w2.1 0 (by norm_num) 1 (by norm_num)).trans ?_
    simp only [zero_le, if_true]
    exact w1.2 34 (by intro i hi j hj; simp only [DMat.ref] at *; omega)
  have v10 : t 11 = 0 := by
    refine (w2.1 1 (by norm_num) 0 (by norm_num)).trans ?_
    simp only [nonpos_iff_eq_zero, one_ne_zero, if_false]
    exact w1.1 1 (by norm_num) 0 (by norm_num)
  have v20 : t 12 = 0 := by
    refine (w2.2 12 (by intro i hi j hj; simp only [DMat.ref] at *; omega)).trans ?_
    exact w1.1 2 (by norm_num) 0 (by norm_num)
  have a01 := congrFun (congrFun G2 0) 1
  have a00 := congrFun (congrFun G2 0) 0
  have a11 := congrFun (congrFun G2 1) 1
  have b01 := congrFun (congrFun G1 0) 1
  simp [Matrix.mul_apply, Fin.sum_univ_three, upper, arr, ex4] at a01 a00 a11 b01
  rw [v00, v01, v10, v20] at b01
  have z : r 34 = 0 := by
    have : r 33 * r 33 = 1 := by nlinarith
    nlinarith
  rw [z] at b01
  nlinarith

/-- the hypothesis of `C118_violates_lda` can be met. -/
example : ∃ gf : Geqrf, ∀ s1, s1 = Lls.dup 3 2 0 4 30 ex4 →
    GeqrfOk 3 2 30 3 20 s1 (gf 3 2 30 3 20 s1) ∧ (gf 3 2 30 3 20 s1).2 = 0 := by
  refine ⟨fun _ _ _ _ _ s => (store (store s 20 0) 21 0, 0), fun s1 e => ⟨?_, rfl⟩⟩
  have hq : qprod 3 (min 3 2) 30 3 20 (store (store s1 20 0) 21 0) = 1 := by
    simp [qprod, List.range_succ, refl, store]
  have w0 := lacpy_write 3 2 0 4 30 3 le_rfl ex4 (by
    intro i hi j hj i' hi' j' hj'
    simp only [DMat.ref] at *
    omega)
  refine ⟨fun x _ h2 => ?_, fun _ => ?_, fun _ => ?_⟩
  · have a := h2 0 (by norm_num)
    have b := h2 1 (by norm_num)
    simp only [store]
    rw [if_neg (by omega), if_neg (by omega)]
  · show qprod 3 (min 3 2) 30 3 20 (store (store s1 20 0) 21 0) ∈ _
    rw [hq]; exact one_mem _
  · show _ = qprod 3 (min 3 2) 30 3 20 (store (store s1 20 0) 21 0) * upper 3 2 30 3 (store (store s1 20 0) 21 0)
    rw [hq, Matrix.one_mul, e]
    ext i j
    have hi := i.2
    have hj := j.2
    simp only [upper, store]
    rw [if_neg (show ¬ 30 + (3 * j.val + i.val) = 21 by omega), if_neg (show ¬ 30 + (3 * j.val + i.val) = 20 by omega)]
    split
    · rfl
    · refine (w0.1 i i.2 j j.2).trans ?_
      simp only [ex4]
      rw [if_neg (by omega), if_neg (by omega)]

/-- **C118 is violated** for an array `Q` of the documented size: with more rows than columns the
function writes behind the `m x n` array. -/
theorem C118_violates_size (gf : Geqrf) (og : Orgqr) (s : Mem ℝ) (hz : s 12 = 0 ∧ s 13 = 0)
    (hg : ∀ s1, s1 = Lls.dup 2 1 0 2 30 s → GeqrfOk 2 1 30 2 20 s1 (gf 2 1 30 2 20 s1) ∧ (gf 2 1 30 2 20 s1).2 = 0)
    (ho : ∀ s, OrgqrOk 2 1 10 2 20 s (og 2 2 1 10 2 20 s)) :
    ∃ s', qr gf og 2 1 0 2 (some (10, 2)) none 20 30 s = some (s', 0) ∧ (s' 12 ≠ s 12 ∨ s' 13 ≠ s 13) := by
  obtain ⟨s', info, e, h, _⟩ := C118_qr_partial gf og 2 1 0 (some (10, 2)) none 20 30 s
    ⟨le_rfl, by simp [Apart], by simp [Apart], by intro p ld e; cases e; simp [Apart], nofun, nofun⟩
    (fun s1 e => (hg s1 e).1) (by intro p ld s e; cases e; exact ho s)
  have hi : info = 0 := by
    have h2 := (hg _ rfl).2
    have : qr gf og 2 1 0 2 (some (10, 2)) none 20 30 s = some (_, (gf 2 1 30 2 20 (Lls.dup 2 1 0 2 30 s)).2) := rfl
    rw [this] at e
    cases e
    exact h2
  subst hi
  refine ⟨s', e, ?_⟩
  obtain ⟨P, U, hP, _, _, hQ, _⟩ := h rfl
  have e1 : Pᵀ * P = 1 := by simpa [Matrix.star_eq_conjTranspose] using (Matrix.mem_orthogonalGroup_iff' (Fin 2) ℝ).1 hP
  rw [← hQ 10 2 rfl] at e1
  have := congrFun (congrFun e1 1) 1
  simp [Matrix.mul_apply, Fin.sum_univ_two, arr] at this
  by_contra hc
  push Not at hc
  rw [hc.1, hc.2, hz.1, hz.2] at this
  norm_num at this

/-- the hypotheses of `C118_qr_partial` and `C118_violates_size` can be met: the column `(1, 0)`. -/
example : ∃ (gf : Geqrf) (og : Orgqr) (s : Mem ℝ), (s 0 = 1 ∧ s 1 = 0 ∧ s 12 = 0 ∧ s 13 = 0) ∧
    (∀ s1, s1 = Lls.dup 2 1 0 2 30 s → GeqrfOk 2 1 30 2 20 s1 (gf 2 1 30 2 20 s1) ∧ (gf 2 1 30 2 20 s1).2 = 0) ∧
    ∀ s, OrgqrOk 2 1 10 2 20 s (og 2 2 1 10 2 20 s) := by
  refine ⟨fun _ _ _ _ _ s => (store s 20 0, 0),
    fun _ _ k a ld tau s => store (store (store (store s a (qprod 2 k a ld tau s 0 0)) (a + 1) (qprod 2 k a ld tau s 1 0))
      (a + ld) (qprod 2 k a ld tau s 0 1)) (a + (ld + 1)) (qprod 2 k a ld tau s 1 1),
    fun a => if a = 0 then 1 else 0, by norm_num, fun s1 e => ⟨?_, rfl⟩, fun s => ⟨fun x hx => ?_, ?_⟩⟩
  · have hq : qprod 2 (min 2 1) 30 2 20 (store s1 20 0) = 1 := by
      simp [qprod, List.range_succ, refl, store]
    refine ⟨fun x _ h2 => ?_, fun _ => ?_, fun _ => ?_⟩
    · have a := h2 0 (by norm_num)
      simp only [store]
      rw [if_neg (by omega)]
    · show qprod 2 (min 2 1) 30 2 20 (store s1 20 0) ∈ _
      rw [hq]; exact one_mem _
    · show _ = qprod 2 (min 2 1) 30 2 20 (store s1 20 0) * upper 2 1 30 2 (store s1 20 0)
      rw [hq, Matrix.one_mul, e]
      ext i j
      fin_cases i <;> fin_cases j <;> simp [arr, upper, store, Lls.dup, dlacpy, forN, List.range_succ]
  · have h0 := hx 0 (by norm_num) 0 (by norm_num)
    have h1 := hx 1 (by norm_num) 0 (by norm_num)
    have h2 := hx 0 (by norm_num) 1 (by norm_num)
    have h3 := hx 1 (by norm_num) 1 (by norm_num)
    simp only [store]
    rw [if_neg (by omega), if_neg (by omega), if_neg (by omega), if_neg (by omega)]
  · ext i j
    fin_cases i <;> fin_cases j <;> simp [arr, store]

/-! ## Eigenvalues -/

/-- the eigenvalues are the roots of the characteristic polynomial with multiplicity; the columns of the
arrays of eigenvectors are eigenvectors: column `j` for a real eigenvalue, columns `j` and `j + 1` are the
real and imaginary part for a pair of complex ones. -/
structure EevSpec {n : Nat} (M : Matrix (Fin n) (Fin n) ℝ) (wr wi : Fin n → ℝ) (Vr : Option (Matrix (Fin n) (Fin n) ℝ)) :
    Prop where
  roots : (M.map (algebraMap ℝ ℂ)).charpoly = ∏ k, (Polynomial.X - Polynomial.C (⟨wr k, wi k⟩ : ℂ))
  real : ∀ V, Vr = some V → ∀ j, wi j = 0 → M *ᵥ V.col j = wr j • V.col j ∧ V.col j ≠ 0
  pair : ∀ V, Vr = some V → ∀ j k : Fin n, k.val = j.val + 1 → 0 < wi j → (V.col j ≠ 0 ∨ V.col k ≠ 0) ∧
    M *ᵥ V.col j = wr j • V.col j - wi j • V.col k ∧ M *ᵥ V.col k = wr j • V.col k + wi j • V.col j

/-- the array of eigenvectors, if there is one. -/
def vecs (n : Nat) (v : Option (Nat × Nat)) (s : Mem ℝ) : Option (Matrix (Fin n) (Fin n) ℝ) :=
  v.map (fun p => arr n n p.1 p.2 s)

/-- what LAPACK says of `dgeev`: left eigenvectors are right eigenvectors of the transpose (for the
conjugate eigenvalue). -/
structure GeevOk (n a lda wr wi : Nat) (vl vr : Option (Nat × Nat)) (s : Mem ℝ) (r : Mem ℝ × Int) : Prop where
  right : r.2 = 0 → EevSpec (arr n n a lda s) (fun k => r.1 (wr + k)) (fun k => r.1 (wi + k)) (vecs n vr r.1)
  left : r.2 = 0 → ∀ V, vecs n vl r.1 = some V → ∀ j : Fin n, r.1 (wi + j) = 0 →
    V.col j ᵥ* arr n n a lda s = r.1 (wr + j) • V.col j ∧ V.col j ≠ 0
  frame : ∀ x, (∀ i < n, ∀ j < n, x ≠ a + (lda * j + i)) → (∀ k < n, x ≠ wr + k ∧ x ≠ wi + k) →
    (∀ p ld, vl = some (p, ld) ∨ vr = some (p, ld) → ∀ i < n, ∀ j < n, x ≠ p + (ld * j + i)) → r.1 x = s x

/-- **C118 (eigenvalues, partial: packed input).** -/
theorem C118_eev_partial (g : Geev) (n A wr wi : Nat) (vl vr : Option (Nat × Nat)) (Ap : Nat) (s : Mem ℝ)
    (hA : Apart A (n * n) Ap (n * n))
    (hg : ∀ s1, s1 = Lls.dup n n A n Ap s → GeevOk n Ap n wr wi vl vr s1 (g n Ap n wr wi vl vr s1)) :
    ∃ s' info, eev g n A n wr wi vl vr Ap s = some (s', info) ∧
      (info = 0 → EevSpec (arr n n A n s) (fun k => s' (wr + k)) (fun k => s' (wi + k)) (vecs n vr s') ∧
        ∀ V, vecs n vl s' = some V → ∀ j : Fin n, s' (wi + j) = 0 →
          V.col j ᵥ* arr n n A n s = s' (wr + j) • V.col j ∧ V.col j ≠ 0) ∧
      ∀ x, ¬ (Ap ≤ x ∧ x < Ap + n * n) → (∀ k < n, x ≠ wr + k ∧ x ≠ wi + k) →
        (∀ p ld, vl = some (p, ld) ∨ vr = some (p, ld) → ∀ i < n, ∀ j < n, x ≠ p + (ld * j + i)) → s' x = s x := by
  have ar : ∀ i < n, ∀ j < n, n * j + i < n * n := fun i hi j hj => area hi hj
  have w0 := lacpy_write n n A n Ap n le_rfl s (by
    intro i hi j hj i' hi' j' hj'
    have := ar i hi j hj
    have := ar i' hi' j' hj'
    simp only [DMat.ref]
    exact apart_ne hA (by omega) (by omega) (by omega) (by omega))
  have e : arr n n Ap n (Lls.dup n n A n Ap s) = arr n n A n s := by
    ext i j; exact w0.1 i i.2 j j.2
  have hin : n = 0 ∨ n * (n - 1) + n ≤ n * n := by
    by_cases h : n = 0
    · left; exact h
    · right; rw [← Nat.mul_succ]; exact Nat.mul_le_mul_left _ (by omega)
  have k := hg _ rfl
  refine ⟨_, _, by rw [eev, if_pos hin], fun hi => ⟨?_, ?_⟩, fun x h1 h2 h3 => ?_⟩
  · have := k.right hi
    rwa [e] at this
  · have := k.left hi
    rwa [e] at this
  · refine (k.frame x (fun i hi j hj e => h1 ?_) h2 h3).trans (w0.2 x (fun i hi j hj e => h1 ?_))
    · have := ar i hi j hj; omega
    · have := ar i hi j hj; simp only [DMat.ref] at e; omega

/-- **C118 is violated**: for every matrix with more than one row, a leading dimension larger than the
number of rows makes LAPACK run over the end of the scratch array. -/
theorem C118_violates_eev (g : Geev) (n A lda wr wi : Nat) (vl vr : Option (Nat × Nat)) (Ap : Nat) (s : Mem ℝ)
    (hn : 2 ≤ n) (hlda : n < lda) : eev g n A lda wr wi vl vr Ap s = none := by
  rw [eev, if_neg]
  obtain ⟨k, rfl⟩ := Nat.exists_eq_add_of_le hn
  obtain ⟨d, rfl⟩ := Nat.exists_eq_add_of_lt hlda
  push Not
  refine ⟨by omega, ?_⟩
  rw [show 2 + k - 1 = k + 1 by omega]
  nlinarith [Nat.zero_le (d * k)]

/-- a matrix of one row: its eigenvalue is found. -/
example : ∃ s' info, eev (fun _ a _ wr wi _ _ s => (store (store s wr (s a)) wi 0, 0)) 1 0 1 5 6 none none 10 (fun _ => 7) =
    some (s', info) ∧ info = 0 ∧ s' 5 = 7 := by
  have h := C118_eev_partial (fun _ a _ wr wi _ _ s => (store (store s wr (s a)) wi 0, 0)) 1 0 5 6 none none 10
    (fun _ => 7) (by simp [Apart]) (by
      intro s1 e
      refine ⟨fun _ => ⟨?_, nofun, nofun⟩, fun _ => nofun, fun x _ h2 _ => ?_⟩
      · rw [Matrix.charpoly, Matrix.det_fin_one]
        simp [Matrix.charmatrix, arr, store, Complex.ext_iff]
      · have := h2 0 (by norm_num)
        simp only [store]
        rw [if_neg (by omega), if_neg (by omega)])
  obtain ⟨s', info, e, _, _⟩ := h
  refine ⟨s', info, e, ?_, ?_⟩
  · simp [eev] at e; exact e.2.symm
  · simp [eev] at e
    rw [← e.1]
    simp [store, Lls.dup, dlacpy, forN]

end Verif.Qr
