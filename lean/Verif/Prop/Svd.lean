import Verif.Model.Svd
import Verif.Prop.Care
import Mathlib.LinearAlgebra.UnitaryGroup

/-!
# C140: singular value decomposition

Specification: two orthogonal matrices and the singular values, not negative and in decreasing order.
-/

namespace Verif.Svd

open Mat Care Matrix

/-- the rectangular matrix with the values on its diagonal. -/
def rdiag {m n : Nat} (σ : Nat → ℝ) : Matrix (Fin m) (Fin n) ℝ := fun i j => if i.val = j.val then σ i else 0

/-- a singular value decomposition. -/
structure IsSvd {m n : Nat} (M : Matrix (Fin m) (Fin n) ℝ) (P : Matrix (Fin m) (Fin m) ℝ) (σ : Nat → ℝ)
    (Q : Matrix (Fin n) (Fin n) ℝ) : Prop where
  left : P ∈ Matrix.orthogonalGroup (Fin m) ℝ
  right : Q ∈ Matrix.orthogonalGroup (Fin n) ℝ
  prod : M = P * (rdiag σ : Matrix (Fin m) (Fin n) ℝ) * Q
  nonneg : ∀ k < min m n, 0 ≤ σ k
  order : ∀ k, k + 1 < min m n → σ (k + 1) ≤ σ k

/-- the memory has a decomposition of `M` in the arrays that are there. -/
def Holds {m n : Nat} (M : Matrix (Fin m) (Fin n) ℝ) (U : Option (Nat × Nat)) (S : Nat) (Vt : Option (Nat × Nat))
    (s : Mem ℝ) : Prop :=
  ∃ P σ Q, IsSvd M P σ Q ∧ (∀ k < min m n, s (S + k) = σ k) ∧
    (∀ p ld, U = some (p, ld) → arr m m p ld s = P) ∧ ∀ p ld, Vt = some (p, ld) → arr n n p ld s = Q

/-- only these arrays changed. -/
def Only (m n : Nat) (U : Option (Nat × Nat)) (S : Nat) (Vt : Option (Nat × Nat)) (a len : Nat) (s s' : Mem ℝ) : Prop :=
  ∀ x, ¬ (a ≤ x ∧ x < a + len) → ¬ (S ≤ x ∧ x < S + min m n) →
    (∀ p ld, U = some (p, ld) → ∀ i < m, ∀ j < m, x ≠ p + (ld * j + i)) →
    (∀ p ld, Vt = some (p, ld) → ∀ i < n, ∀ j < n, x ≠ p + (ld * j + i)) → s' x = s x

/-- what LAPACK says of a call of either routine. -/
structure LapackOk (m n a lda S : Nat) (U Vt : Option (Nat × Nat)) (s : Mem ℝ) (r : Mem ℝ × Int) : Prop where
  frame : Only m n U S Vt a (lda * n) s r.1
  fact : r.2 = 0 → Holds (arr m n a lda s) U S Vt r.1

/-- the leading dimensions for which the arguments of LAPACK fit. -/
structure Fits (m n lda : Nat) (U Vt : Option (Nat × Nat)) : Prop where
  both : U.isSome → Vt.isSome → lda = m
  left : Vt = none → ∀ p ld, U = some (p, ld) → ld = m ∧ 0 < m
  right : U = none → ∀ p ld, Vt = some (p, ld) → ld = n ∧ 0 < n

theorem dup_arr {m n A lda Ap : Nat} (h : m ≤ lda) (ha : Apart A (lda * n) Ap (m * n)) (s : Mem ℝ) :
    arr m n Ap m (Lls.dup m n A lda Ap s) = arr m n A lda s ∧
      ∀ x, ¬ (Ap ≤ x ∧ x < Ap + m * n) → Lls.dup m n A lda Ap s x = s x := by
  have w0 := lacpy_write m n A lda Ap m le_rfl s (by
    intro i hi j hj i' hi' j' hj'
    have := area (ld := lda) (i := i) (j := j) (c := n) (lt_of_lt_of_le hi h) hj
    have := area (ld := m) (i := i') (j := j') (c := n) hi' hj'
    simp only [DMat.ref]
    exact apart_ne ha (by omega) (by omega) (by omega) (by omega))
  refine ⟨by ext i j; exact w0.1 i i.2 j j.2, fun x hx => w0.2 x fun i hi j hj e => hx ?_⟩
  have := area (ld := m) (i := i) (j := j) (c := n) hi hj
  simp only [DMat.ref] at e
  omega

/-- **C140, partial: leading dimensions that fit.** If both factors are asked for and `A` has no padding, or
only one and that has no padding, or none, the call puts a singular value decomposition of `A` into the
arrays, whenever it returns zero. Only the results and scratch memory change. -/
theorem C140_svd_partial (gd : Gesdd) (gv : Gesvd) (m n A lda : Nat) (U : Option (Nat × Nat)) (S : Nat)
    (Vt : Option (Nat × Nat)) (Ap : Nat) (s : Mem ℝ) (hl : m ≤ lda) (ha : Apart A (lda * n) Ap (m * n))
    (hf : Fits m n lda U Vt)
    (hd : ∀ u ldu vt ldvt s1, U = some (u, ldu) → Vt = some (vt, ldvt) → s1 = Lls.dup m n A lda Ap s →
      LapackOk m n Ap m S U Vt s1 (gd m n Ap m S u ldu vt ldvt s1))
    (hv : ∀ s1, (U = none ∨ Vt = none) → s1 = Lls.dup m n A lda Ap s →
      LapackOk m n Ap m S U Vt s1 (gv m n Ap m S U Vt s1)) :
    ∃ s' info, svd gd gv m n A lda U S Vt Ap s = some (s', info) ∧
      (info = 0 → Holds (arr m n A lda s) U S Vt s') ∧ Only m n U S Vt Ap (m * n) s s' := by
  obtain ⟨hA, hfr⟩ := dup_arr hl ha s
  have key : ∀ r, LapackOk m n Ap m S U Vt (Lls.dup m n A lda Ap s) r →
      (r.2 = 0 → Holds (arr m n A lda s) U S Vt r.1) ∧ Only m n U S Vt Ap (m * n) s r.1 := by
    intro r hr
    refine ⟨fun h0 => hA ▸ hr.fact h0, fun x h1 h2 h3 h4 => (hr.frame x h1 h2 h3 h4).trans (hfr x h1)⟩
  rcases U with _ | ⟨u, ldu⟩
  · rcases Vt with _ | ⟨vt, ldvt⟩
    · exact ⟨_, _, rfl, key _ (hv _ (Or.inl rfl) rfl)⟩
    · obtain ⟨h1, h2⟩ := hf.right rfl vt ldvt rfl
      subst h1
      have := hv _ (Or.inl rfl) rfl
      refine ⟨_, _, ?_, key _ this⟩
      simp only [svd, job, if_pos h2, gt_iff_lt]
  · rcases Vt with _ | ⟨vt, ldvt⟩
    · obtain ⟨h1, h2⟩ := hf.left rfl u ldu rfl
      subst h1
      have := hv _ (Or.inr rfl) rfl
      refine ⟨_, _, ?_, key _ this⟩
      simp only [svd, job, if_pos h2, gt_iff_lt]
    · have h1 := hf.both rfl rfl
      subst h1
      have := hd u ldu vt ldvt _ rfl rfl rfl
      refine ⟨_, _, ?_, key _ this⟩
      have hc : lda = 0 ∨ n = 0 ∨ lda * (n - 1) + lda ≤ lda * n := by
        by_cases h : n = 0
        · exact Or.inr (Or.inl h)
        · obtain ⟨k, rfl⟩ := Nat.exists_eq_succ_of_ne_zero h
          right; right
          simp [Nat.mul_add]
      simp only [svd, if_pos hc]

/-- **C140 for `aa_la_svd`**, the packed call of a matrix that is not empty: it holds whichever of the factors
are asked for. -/
theorem C140_packed_partial (gd : Gesdd) (gv : Gesvd) (m n A : Nat) (U : Option Nat) (S : Nat) (Vt : Option Nat)
    (Ap : Nat) (s : Mem ℝ) (hm : 0 < m) (hn : 0 < n) (ha : Apart A (m * n) Ap (m * n))
    (hd : ∀ u v s1, U = some u → Vt = some v → s1 = Lls.dup m n A m Ap s →
      LapackOk m n Ap m S (some (u, m)) (some (v, n)) s1 (gd m n Ap m S u m v n s1))
    (hv : ∀ s1, (U = none ∨ Vt = none) → s1 = Lls.dup m n A m Ap s →
      LapackOk m n Ap m S (U.map fun u => (u, m)) (Vt.map fun v => (v, n)) s1
        (gv m n Ap m S (U.map fun u => (u, m)) (Vt.map fun v => (v, n)) s1)) :
    ∃ s' info, svdPacked gd gv m n A U S Vt Ap s = some (s', info) ∧
      (info = 0 → Holds (arr m n A m s) (U.map fun u => (u, m)) S (Vt.map fun v => (v, n)) s') ∧
      Only m n (U.map fun u => (u, m)) S (Vt.map fun v => (v, n)) Ap (m * n) s s' := by
  unfold svdPacked
  refine C140_svd_partial gd gv m n A m _ S _ Ap s le_rfl ha ⟨fun _ _ => rfl, ?_, ?_⟩ ?_ ?_
  · rintro - p ld h
    cases U <;> simp at h
    exact ⟨h.2.symm, hm⟩
  · rintro - p ld h
    cases Vt <;> simp at h
    exact ⟨h.2.symm, hn⟩
  · intro u ldu vt ldvt s1 h1 h2 h3
    cases U <;> simp at h1
    cases Vt <;> simp at h2
    obtain ⟨rfl, rfl⟩ := h1
    obtain ⟨rfl, rfl⟩ := h2
    exact hd _ _ _ rfl rfl h3
  · intro s1 h h1
    exact hv s1 (h.imp (fun h => by simpa using h) (fun h => by simpa using h)) h1

/-- **C140 is violated** by every matrix with padding, at least two columns and a row, when both factors are
asked for: the copy without padding is read with the leading dimension of the original, outside of it. -/
theorem C140_violates_lda (gd : Gesdd) (gv : Gesvd) (m n A lda S Ap : Nat) (u v : Nat × Nat) (s : Mem ℝ)
    (hm : 0 < m) (hn : 2 ≤ n) (hl : m < lda) :
    svd gd gv m n A lda (some u) S (some v) Ap s = none := by
  have h : ¬ (m = 0 ∨ n = 0 ∨ lda * (n - 1) + m ≤ m * n) := by
    rintro (h | h | h)
    · omega
    · omega
    · obtain ⟨k, rfl⟩ : ∃ k, n = k + 1 := ⟨n - 1, by omega⟩
      simp only [Nat.add_sub_cancel, Nat.mul_add, Nat.mul_one] at h
      have h1 : lda * k ≤ m * k := by omega
      have h2 : m * k < lda * k := Nat.mul_lt_mul_of_pos_right hl (by omega)
      omega
  simp only [svd, if_neg h]

/-- the matrix `(1, 0)` of one column. -/
noncomputable def exCol : Mem ℝ := fun a => if a = 0 then 1 else 0

/-- **C140 is violated** when only the left factor is asked for, in an array with padding: whatever LAPACK
computes, the array is not orthogonal. -/
theorem C140_violates_ldu (gd : Gesdd) (gv : Gesvd)
    (hv : ∀ s1, s1 = Lls.dup 2 1 0 2 30 exCol →
      LapackOk 2 1 30 2 20 (some (10, 2)) none s1 (gv 2 1 30 2 20 (some (10, 2)) none s1) ∧
      (gv 2 1 30 2 20 (some (10, 2)) none s1).2 = 0) :
    ∃ s', svd gd gv 2 1 0 2 (some (10, 3)) 20 none 30 exCol = some (s', 0) ∧
      ¬ Holds (arr 2 1 0 2 exCol) (some (10, 3)) 20 none s' := by
  obtain ⟨h1, h2⟩ := hv _ rfl
  obtain ⟨hA, hfr⟩ := dup_arr (m := 2) (n := 1) (A := 0) (lda := 2) (Ap := 30) le_rfl (by simp [Apart]) exCol
  set r := gv 2 1 30 2 20 (some (10, 2)) none (Lls.dup 2 1 0 2 30 exCol) with hr
  refine ⟨r.1, ?_, ?_⟩
  · show some r = _
    rw [← h2]
  · rintro ⟨P, σ, Q, hs, -, hP, -⟩
    obtain ⟨P', σ', Q', hs', -, hP', -⟩ := h1.fact h2
    rw [hA] at hs'
    have e1 := hP 10 3 rfl
    have e2 := hP' 10 2 rfl
    have f14 : r.1 14 = 0 := by
      rw [h1.frame 14 (by omega) (by omega) (by
        rintro p ld e i hi j hj
        cases e
        omega) (fun p ld e => nomatch e), hfr 14 (by omega)]
      simp [exCol]
    have orth : ∀ {k : Nat} {M : Matrix (Fin k) (Fin k) ℝ}, M ∈ Matrix.orthogonalGroup (Fin k) ℝ → Mᵀ * M = 1 := by
      intro k M h
      simpa [Matrix.star_eq_conjTranspose] using (Matrix.mem_orthogonalGroup_iff' (Fin k) ℝ).1 h
    have o1 := orth hs.left
    have o2 := orth hs'.left
    have q1 := congrFun (congrFun hs'.prod 0) 0
    have q2 := congrFun (congrFun hs'.prod 1) 0
    simp only [Matrix.mul_apply, Fin.sum_univ_two, Fin.sum_univ_one, rdiag, arr, exCol] at q1 q2
    norm_num at q1 q2
    have a00 := congrFun (congrFun o1 0) 1
    have a01 := congrFun (congrFun o1 0) 0
    have a11 := congrFun (congrFun o1 1) 1
    have b00 := congrFun (congrFun o2 0) 0
    have b01 := congrFun (congrFun o2 0) 1
    have b11 := congrFun (congrFun o2 1) 1
    rw [← e1] at a00 a01 a11
    rw [← e2] at b00 b01 b11 q1 q2
    simp only [Matrix.mul_apply, Fin.sum_univ_two, Matrix.transpose_apply, arr, Matrix.one_apply] at a00 a01 a11 b00 b01 b11 q1 q2
    norm_num at a00 a01 a11 b00 b01 b11 q1 q2
    rw [f14] at a00 a11
    have h11 : r.1 11 = 0 := by
      rcases q2 with (h | h) | h
      · exact h
      · rw [h] at q1; norm_num at q1
      · rw [h] at q1; norm_num at q1
    rw [h11] at a01
    have h10 : r.1 10 ≠ 0 := by
      intro h
      rw [h] at a01
      norm_num at a01
    have h13 : r.1 13 = 0 := by
      have : r.1 10 * r.1 13 = 0 := by linarith
      exact (mul_eq_zero.1 this).resolve_left h10
    rw [h13] at a11
    norm_num at a11

/-- a routine that is right for a matrix of one negative element, at the addresses below. -/
noncomputable def negSvd : Mem ℝ → Mem ℝ × Int := fun s => (store (store (store s 20 2) 10 (-1)) 12 1, 0)

/-- The hypotheses hold for the matrix `(-2)`, with both factors. -/
example : ∃ s', svd (fun _ _ _ _ _ _ _ _ _ => negSvd) (fun _ _ _ _ _ _ _ s => (s, 1)) 1 1 0 1 (some (10, 1)) 20
      (some (12, 1)) 30 (fun a => if a = 0 then -2 else 0) = some (s', 0) ∧ s' 20 = 2 ∧
      Holds (arr 1 1 0 1 (fun a => if a = 0 then -2 else 0)) (some (10, 1)) 20 (some (12, 1)) s' := by
  set s : Mem ℝ := fun a => if a = 0 then -2 else 0 with hs
  obtain ⟨hA, -⟩ := dup_arr (m := 1) (n := 1) (A := 0) (lda := 1) (Ap := 30) le_rfl (by simp [Apart]) s
  have one : ∀ x : ℝ, x * x = 1 → Matrix.of (fun _ _ : Fin 1 => x) ∈ Matrix.orthogonalGroup (Fin 1) ℝ := by
    intro x hx
    rw [Matrix.mem_orthogonalGroup_iff]
    ext i j
    fin_cases i; fin_cases j
    simpa [Matrix.mul_apply, Matrix.star_eq_conjTranspose] using hx
  have hok : LapackOk 1 1 30 1 20 (some (10, 1)) (some (12, 1)) (Lls.dup 1 1 0 1 30 s)
      (negSvd (Lls.dup 1 1 0 1 30 s)) := by
    refine ⟨fun x h1 h2 h3 h4 => ?_, fun _ => ?_⟩
    · have a1 := h3 10 1 rfl 0 (by norm_num) 0 (by norm_num)
      have a2 := h4 12 1 rfl 0 (by norm_num) 0 (by norm_num)
      have a3 : x ≠ 20 := by rintro rfl; exact h2 (by norm_num)
      simp only [Nat.mul_zero, Nat.add_zero] at a1 a2
      simp only [negSvd, store, a1, a2, a3, if_false]
    · rw [hA]
      refine ⟨Matrix.of fun _ _ => -1, fun _ => 2, Matrix.of fun _ _ => 1, ⟨one _ (by norm_num), one _ (by norm_num), ?_, ?_, ?_⟩, ?_, ?_, ?_⟩
      · ext i j
        fin_cases i; fin_cases j
        simp [Matrix.mul_apply, rdiag, arr, hs]
      · intro k _; norm_num
      · intro k hk; omega
      · intro k hk
        obtain rfl : k = 0 := by omega
        simp [negSvd, store]
      · intro p ld e
        cases e
        ext i j
        fin_cases i; fin_cases j
        simp [negSvd, store, arr]
      · intro p ld e
        cases e
        ext i j
        fin_cases i; fin_cases j
        simp [negSvd, store, arr]
  obtain ⟨s', info, e, h, -⟩ := C140_svd_partial (fun _ _ _ _ _ _ _ _ _ => negSvd) (fun _ _ _ _ _ _ _ s => (s, 1)) 1 1 0 1
    (some (10, 1)) 20 (some (12, 1)) 30 s le_rfl (by simp [Apart])
    ⟨(fun _ _ => rfl), (fun h => nomatch h), (fun h => nomatch h)⟩
    (by
      intro u ldu vt ldvt s1 h1 h2 h3
      subst h3
      exact hok)
    (by rintro s1 (h | h) <;> exact nomatch h)
  have e' : svd (fun _ _ _ _ _ _ _ _ _ => negSvd) (fun _ _ _ _ _ _ _ s => (s, 1)) 1 1 0 1 (some (10, 1)) 20
      (some (12, 1)) 30 s = some (negSvd (Lls.dup 1 1 0 1 30 s)) := rfl
  rw [e', Option.some.injEq] at e
  refine ⟨s', ?_, ?_, h ?_⟩
  · rw [e']
    have : info = 0 := by have := congrArg Prod.snd e; exact this.symm
    rw [e, this]
  · have := congrArg Prod.fst e
    have : s' = (negSvd (Lls.dup 1 1 0 1 30 s)).1 := this.symm
    rw [this]
    simp [negSvd, store]
  · have := congrArg Prod.snd e; exact this.symm

end Verif.Svd
