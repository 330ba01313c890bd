import Verif.Model.Inv
import Verif.Prop.Care
import Mathlib.LinearAlgebra.Matrix.Block
import Mathlib.LinearAlgebra.Matrix.NonsingularInverse

/-!
# C150: inverse of a matrix in place

Specification: `Matrix.det` and `⁻¹` of Mathlib. `RfOk` and `RiOk` are what LAPACK says of `dgetrf` and
`dgetri`, over the reals, for the calls that are made.
-/

namespace Verif.Inv

open Mat Care Matrix

/-! ## What LAPACK says -/

/-- the unit lower triangular factor in an array. -/
def lower (n a lda : Nat) (s : Mem ℝ) : Matrix (Fin n) (Fin n) ℝ :=
  fun i j => if i = j then 1 else if j < i then s (a + (lda * j + i)) else 0

/-- the upper triangular factor in an array. -/
def upper (n a lda : Nat) (s : Mem ℝ) : Matrix (Fin n) (Fin n) ℝ :=
  fun i j => if i ≤ j then s (a + (lda * j + i)) else 0

/-- row `i` was exchanged with row `p i`, for `i = 0, 1, …`. -/
def rowPerm (n : Nat) (p : Nat → Nat) : Equiv.Perm (Fin n) :=
  (List.finRange n).foldl (fun σ (i : Fin n) => if h : p i < n then σ * Equiv.swap i ⟨p i, h⟩ else σ) 1

/-- `M` is what the factors in the array, with these pivots, are the factors of. -/
def Factors (n a lda : Nat) (p : Nat → Nat) (s : Mem ℝ) (M : Matrix (Fin n) (Fin n) ℝ) : Prop :=
  M.submatrix (rowPerm n p) id = lower n a lda s * upper n a lda s

/-- `dgetrf` of a square matrix. -/
structure RfOk (n a lda : Nat) (s : Mem ℝ) (r : Mem ℝ × (Nat → Nat) × Int) : Prop where
  frame : ∀ x, (∀ i < n, ∀ j < n, x ≠ a + (lda * j + i)) → r.1 x = s x
  fact : Factors n a lda r.2.1 r.1 (arr n n a lda s)
  info : r.2.2 = 0 ↔ ∀ i : Fin n, upper n a lda r.1 i i ≠ 0

/-- `dgetri`: the query of the size of the workspace, and the call with a workspace of at least `max 1 n`. -/
structure RiOk (n a lda : Nat) (p : Nat → Nat) (ri : Nat → Int → Mem ℝ → Mem ℝ × ℝ) (s : Mem ℝ) : Prop where
  query : ∀ size, 1 ≤ size → (ri size (-1) s).1 = s ∧ ∃ k : Nat, max 1 n ≤ k ∧ (ri size (-1) s).2 = k
  frame : ∀ size (k : Nat), max 1 n ≤ k → k ≤ size → ∀ x, (∀ i < n, ∀ j < n, x ≠ a + (lda * j + i)) →
    (ri size k s).1 x = s x
  invert : ∀ size (k : Nat), max 1 n ≤ k → k ≤ size → (∀ i : Fin n, upper n a lda s i i ≠ 0) →
    ∀ M, Factors n a lda p s M → M * arr n n a lda (ri size k s).1 = 1
  singular : ∀ size (k : Nat), max 1 n ≤ k → k ≤ size → (∃ i : Fin n, upper n a lda s i i = 0) →
    (ri size k s).1 = s

/-! ## Proofs -/

theorem det_lower (n a lda : Nat) (s : Mem ℝ) : (lower n a lda s).det = 1 := by
  rw [Matrix.det_of_isLowerTriangular]
  · simp [lower]
  · intro i j h
    have h : i < j := h
    simp [lower, h.ne, not_lt.2 h.le]

theorem det_upper (n a lda : Nat) (s : Mem ℝ) : (upper n a lda s).det = ∏ i, upper n a lda s i i :=
  Matrix.det_of_isUpperTriangular fun i j (h : j < i) => by simp [upper, not_le.2 h]

/-- a matrix is singular exactly if its factor has a zero on the diagonal. -/
theorem det_factors {n a lda : Nat} {p : Nat → Nat} {s : Mem ℝ} {M : Matrix (Fin n) (Fin n) ℝ}
    (h : Factors n a lda p s M) : M.det ≠ 0 ↔ ∀ i : Fin n, upper n a lda s i i ≠ 0 := by
  have := congrArg Matrix.det h
  rw [Matrix.det_permute, Matrix.det_mul, det_lower, one_mul, det_upper] at this
  have e : (∀ i : Fin n, upper n a lda s i i ≠ 0) ↔ ∏ i, upper n a lda s i i ≠ 0 := by
    simp [Finset.prod_ne_zero_iff]
  rw [e, ← this]
  have hs : ((Equiv.Perm.sign (rowPerm n p) : ℤ) : ℝ) ≠ 0 := by
    rcases Int.units_eq_one_or (Equiv.Perm.sign (rowPerm n p)) with h | h <;> simp [h]
  simp [hs]

theorem toInt_nat (k : Nat) : toInt (k : ℝ) = k := by
  simp [toInt]

/-- two rounds of the loop suffice. -/
theorem loop_eq {ri : Getri} {n a lda : Nat} {p : Nat → Nat} {s : Mem ℝ}
    (h : RiOk n a lda p (fun size lwork s => ri n a lda p size lwork s) s) (fuel : Nat) :
    ∃ k : Nat, max 1 n ≤ k ∧ loop ri n a lda p (fuel + 2) (-1) s = some (ri n a lda p k k s).1 := by
  obtain ⟨h1, k, hk, h2⟩ := h.query 1 le_rfl
  refine ⟨k, hk, ?_⟩
  have hk' : (0 : Int) < k := by have := le_trans (le_max_left 1 n) hk; omega
  have hn : ¬ ((k : Int) < 0) := by omega
  simp only [loop]
  norm_num
  rw [h1, h2, toInt_nat, if_pos hk', if_neg hn, Int.toNat_natCast]

/-- **C150 for matrices that are not empty.** -/
theorem C150_inv_partial (rf : Getrf) (ri : Getri) (fuel n a lda : Nat) (s : Mem ℝ) (hn : 0 < n) (hl : n ≤ lda)
    (hrf : RfOk n a lda s (rf n n a lda s))
    (hri : RiOk n a lda (rf n n a lda s).2.1 (ri n a lda (rf n n a lda s).2.1) (rf n n a lda s).1) :
    ∃ s' info, inv rf ri (fuel + 2) n a lda s = some (s', info) ∧
      (info = 0 ↔ (arr n n a lda s).det ≠ 0) ∧
      (info = 0 → arr n n a lda s' = (arr n n a lda s)⁻¹) ∧
      ∀ x, (∀ i < n, ∀ j < n, x ≠ a + (lda * j + i)) → s' x = s x := by
  obtain ⟨k, hk, hloop⟩ := loop_eq hri fuel
  have hlda : ¬ lda < max 1 n := by omega
  refine ⟨(ri n a lda (rf n n a lda s).2.1 k k (rf n n a lda s).1).1, (rf n n a lda s).2.2, by
    simp only [inv, if_neg hlda, hloop, Option.map_some], ?_, ?_, ?_⟩
  · rw [hrf.info, det_factors hrf.fact]
  · intro h
    exact (Matrix.inv_eq_right_inv (hri.invert k k hk le_rfl (hrf.info.1 h) _ hrf.fact)).symm
  · intro x hx
    rw [hri.frame k k hk le_rfl x hx, hrf.frame x hx]

/-- **C150 for `aa_la_inv`**, matrices without padding. -/
theorem C150_packed_partial (rf : Getrf) (ri : Getri) (fuel n a : Nat) (s : Mem ℝ) (hn : 0 < n)
    (hrf : RfOk n a n s (rf n n a n s))
    (hri : RiOk n a n (rf n n a n s).2.1 (ri n a n (rf n n a n s).2.1) (rf n n a n s).1) :
    ∃ s' info, laInv rf ri (fuel + 2) n a s = some (s', info) ∧
      (info = 0 ↔ (arr n n a n s).det ≠ 0) ∧ (info = 0 → arr n n a n s' = (arr n n a n s)⁻¹) ∧
      ∀ x, ¬ (a ≤ x ∧ x < a + n * n) → s' x = s x := by
  obtain ⟨s', info, h1, h2, h3, h4⟩ := C150_inv_partial rf ri fuel n a n s hn le_rfl hrf hri
  refine ⟨s', info, h1, h2, h3, fun x hx => h4 x fun i hi j hj e => hx ?_⟩
  have := area (ld := n) hi hj
  omega

/-- LAPACK does as it says at the matrix `A`. -/
structure Lapack (rf : Getrf) (ri : Getri) (n a lda : Nat) (s : Mem ℝ) : Prop where
  hrf : RfOk n a lda s (rf n n a lda s)
  hri : RiOk n a lda (rf n n a lda s).2.1 (ri n a lda (rf n n a lda s).2.1) (rf n n a lda s).1

theorem lacpy_ok {A B : DMat} (hr : A.rows = B.rows) (hc : A.cols = B.cols) (hB : B.rows ≤ B.ld)
    (hd : A = B ∨ MatDisjoint A B) (s : Mem ℝ) :
    ∃ s', lacpy A B s = some s' ∧ MatWrite B s s' (fun i j => s (A.ref i j)) := by
  refine ⟨dlacpy B.rows B.cols A.data A.ld B.data B.ld s, by simp [lacpy, hr, hc], ?_⟩
  rcases hd with rfl | hd
  · exact forN_mat (M := A) hB (fun i j s => s (A.ref i j))
      (fun j hj i hi _ _ hm => hm _ (mat_self hB hi)) s
  · exact forN_mat (M := B) hB (fun i j s => s (A.ref i j))
      (fun j hj i hi _ _ hm => hm _ (fun j' hj' i' hi' _ => hd i (hr ▸ hi) j (hc ▸ hj) i' (hr ▸ hi') j' (hc ▸ hj'))) s

/-- **C150 for `B = A.inverse()` of C++**, into another matrix or into `A` itself: `B` is the inverse if there
is one. -/
theorem C150_cpp_partial (rf : Getrf) (ri : Getri) (fuel : Nat) (A B : DMat) (n : Nat) (s : Mem ℝ) (hn : 0 < n)
    (hA : A.rows = n ∧ A.cols = n) (hB : B.rows = n ∧ B.cols = n) (hl : n ≤ B.ld) (hd : A = B ∨ MatDisjoint A B)
    (hok : ∀ s1, lacpy A B s = some s1 → Lapack rf ri n B.data B.ld s1) :
    ∃ s', cppInverse rf ri (fuel + 2) A B s = some s' ∧
      ((arr n n A.data A.ld s).det ≠ 0 → arr n n B.data B.ld s' = (arr n n A.data A.ld s)⁻¹) ∧
      ∀ x, (∀ i < n, ∀ j < n, x ≠ B.ref i j) → s' x = s x := by
  obtain ⟨s1, h1, w, f⟩ := lacpy_ok (hA.1.trans hB.1.symm) (hA.2.trans hB.2.symm) (hB.1 ▸ hl) hd s
  obtain ⟨l1, l2⟩ := hok s1 h1
  obtain ⟨s', info, e1, e2, e3, e4⟩ := C150_inv_partial rf ri fuel n B.data B.ld s1 hn hl l1 l2
  have ea : arr n n B.data B.ld s1 = arr n n A.data A.ld s := by
    ext i j
    exact w i (hB.1 ▸ i.2) j (hB.2 ▸ j.2)
  refine ⟨s', ?_, ?_, ?_⟩
  · simp only [cppInverse, h1, Option.bind_some, dmatInv, hB.1, hB.2, ne_eq, not_true, if_false, e1, Option.map_some]
  · rw [← ea]
    exact fun h => e3 (e2.2 h)
  · intro x hx
    rw [e4 x hx]
    exact f x (hB.1.symm ▸ hB.2.symm ▸ hx)

/-- **C150 for `A.inv()` of Python**, the new matrix at `b`: it is the inverse if there is one. -/
theorem C150_python_partial (rf : Getrf) (ri : Getri) (fuel : Nat) (A : DMat) (n b : Nat) (s : Mem ℝ) (hn : 0 < n)
    (hA : A.rows = n ∧ A.cols = n) (hd : MatDisjoint A ⟨n, n, b, n⟩)
    (hok : ∀ s1, lacpy A ⟨n, n, b, n⟩ s = some s1 → Lapack rf ri n b n s1) :
    ∃ s', pyInv rf ri (fuel + 2) A b s = some (⟨n, n, b, n⟩, s') ∧
      ((arr n n A.data A.ld s).det ≠ 0 → arr n n b n s' = (arr n n A.data A.ld s)⁻¹) ∧
      ∀ i < n, ∀ j < n, s' (A.ref i j) = s (A.ref i j) := by
  obtain ⟨s', h1, h2, h3⟩ := C150_cpp_partial rf ri fuel A ⟨n, n, b, n⟩ n s hn hA ⟨rfl, rfl⟩ le_rfl (Or.inr hd) hok
  refine ⟨s', ?_, h2, fun i hi j hj => h3 _ fun i' hi' j' hj' => hd i (hA.1.symm ▸ hi) j (hA.2.symm ▸ hj) i' (hA.1.symm ▸ hi') j' (hA.2.symm ▸ hj')⟩
  obtain ⟨c1, c2⟩ := hA
  simp only [cppInverse, Option.bind_eq_some_iff, Option.map_eq_some_iff] at h1
  obtain ⟨s1, e1, r, e2, e3⟩ := h1
  simp only [pyInv, c1, c2, e1, Option.bind_some, e2, Option.map_some, e3]

/-! ## Violations -/

/-- **C150 is violated by every singular matrix** in Python and C++: there is a result, and it is not reported
that there is no inverse. -/
theorem C150_unreported_violates (rf : Getrf) (ri : Getri) (fuel : Nat) (A : DMat) (n b : Nat) (s : Mem ℝ) (hn : 0 < n)
    (hA : A.rows = n ∧ A.cols = n) (hd : MatDisjoint A ⟨n, n, b, n⟩)
    (hok : ∀ s1, lacpy A ⟨n, n, b, n⟩ s = some s1 → Lapack rf ri n b n s1)
    (h0 : (arr n n A.data A.ld s).det = 0) :
    ∃ s', pyInv rf ri (fuel + 2) A b s = some (⟨n, n, b, n⟩, s') ∧
      cppInverse rf ri (fuel + 2) A ⟨n, n, b, n⟩ s = some s' ∧ arr n n A.data A.ld s * arr n n b n s' ≠ 1 := by
  obtain ⟨s', h1, -, -⟩ := C150_python_partial rf ri fuel A n b s hn hA hd hok
  refine ⟨s', h1, ?_, fun e => ?_⟩
  · obtain ⟨c1, c2⟩ := hA
    simp only [pyInv, c1, c2, Option.bind_eq_some_iff, Option.map_eq_some_iff, Prod.mk.injEq, true_and] at h1
    obtain ⟨s1, e1, r, e2, e3⟩ := h1
    simp only [cppInverse, e1, Option.bind_some, e2, Option.map_some, e3]
  · have := congrArg Matrix.det e
    rw [Matrix.det_mul, h0, zero_mul, Matrix.det_one] at this
    exact zero_ne_one this

/-- **C150 is violated by the matrix of ones**: it is singular, and not left as it was. -/
theorem C150_destroyed_violates (rf : Getrf) (ri : Getri) (fuel : Nat) (hok : Lapack rf ri 2 0 2 (fun _ => 1)) :
    ∃ s' info, laInv rf ri (fuel + 2) 2 0 (fun _ => 1) = some (s', info) ∧ info ≠ 0 ∧ s' 3 = 0 := by
  obtain ⟨hrf, hri⟩ := hok
  obtain ⟨k, hk, hloop⟩ := loop_eq hri fuel
  have hf := hrf.fact
  have hone : ∀ i j, (arr 2 2 0 2 (fun _ => 1)).submatrix (rowPerm 2 (rf 2 2 0 2 fun _ => 1).2.1) id i j = 1 := by
    intro i j
    simp [arr]
  rw [Factors] at hf
  have e00 := (congrFun (congrFun hf 0) 0).symm.trans (hone 0 0)
  have e01 := (congrFun (congrFun hf 0) 1).symm.trans (hone 0 1)
  have e10 := (congrFun (congrFun hf 1) 0).symm.trans (hone 1 0)
  have e11 := (congrFun (congrFun hf 1) 1).symm.trans (hone 1 1)
  simp [Matrix.mul_apply, lower, upper, Fin.sum_univ_two] at e00 e01 e10 e11
  rw [e00, mul_one] at e10
  rw [e10, e01] at e11
  have h3 : (rf 2 2 0 2 fun _ => 1).1 3 = 0 := by linarith
  have hz : ∃ i : Fin 2, upper 2 0 2 (rf 2 2 0 2 fun _ => 1).1 i i = 0 := ⟨1, by simpa [upper] using h3⟩
  refine ⟨(ri 2 0 2 (rf 2 2 0 2 fun _ => 1).2.1 k k (rf 2 2 0 2 fun _ => 1).1).1, (rf 2 2 0 2 fun _ => 1).2.2, ?_, ?_, ?_⟩
  · simp only [laInv, inv, hloop, Option.map_some]
    rfl
  · intro h
    obtain ⟨i, hi⟩ := hz
    exact hrf.info.1 h i hi
  · rw [hri.singular k k hk le_rfl hz, h3]

/-- there is such a LAPACK. -/
example : ∃ rf ri, Lapack rf ri 2 0 2 (fun _ => 1) := by
  have hp : rowPerm 2 (fun i => i) = 1 := by decide
  let L : Mem ℝ := fun x => if x = 3 then 0 else 1
  have hz : upper 2 0 2 L 1 1 = 0 := by simp [upper, L]
  refine ⟨fun _ _ _ _ _ => (L, fun i => i, 2), fun _ _ _ _ _ _ s => (s, ((2 : Nat) : ℝ)), ⟨?_, ?_, ?_⟩,
    ⟨fun size _ => ⟨rfl, 2, le_rfl, rfl⟩, fun _ _ _ _ _ _ => rfl, fun _ _ _ _ h => absurd hz (h 1), fun _ _ _ _ _ => rfl⟩⟩
  · intro x hx
    have : x ≠ 3 := hx 1 (by omega) 1 (by omega)
    simp [L, this]
  · simp only [Factors, hp]
    ext i j
    fin_cases i <;> fin_cases j <;> simp [Matrix.mul_apply, Fin.sum_univ_two, lower, upper, L, arr]
  · exact ⟨fun h => absurd h (by decide), fun h => absurd hz (h 1)⟩

/-- **C150 is violated by the empty matrix**, which is its own inverse: LAPACK stops the program. -/
theorem C150_empty_violates (rf : Getrf) (ri : Getri) (fuel a : Nat) (s : Mem ℝ) :
    (arr 0 0 a 0 s).det = 1 ∧ laInv rf ri fuel 0 a s = none ∧ dmatInv rf ri fuel ⟨0, 0, a, 0⟩ s = none :=
  ⟨by simp, by simp [laInv, inv], by simp [dmatInv, inv]⟩

/-! ## An example: exchange of two coordinates, which needs a pivot -/

/-- the array `a, b, c, d` at 0 and zeros. -/
def mem4 (a b c d : ℝ) : Mem ℝ := fun x => match x with | 0 => a | 1 => b | 2 => c | 3 => d | _ => 0

example : ∃ (rf : Getrf) (ri : Getri), Lapack rf ri 2 0 2 (mem4 0 1 1 0) ∧
    ∃ s', laInv rf ri 2 2 0 (mem4 0 1 1 0) = some (s', 0) ∧ arr 2 2 0 2 s' = !![0, 1; 1, 0] := by
  have hp : rowPerm 2 (fun _ => 1) = Equiv.swap 0 1 := by decide
  have ne4 : ∀ x, (∀ i < 2, ∀ j < 2, x ≠ 0 + (2 * j + i)) → 4 ≤ x := by
    intro x hx
    by_contra h
    have : x = 0 ∨ x = 1 ∨ x = 2 ∨ x = 3 := by omega
    rcases this with rfl | rfl | rfl | rfl
    · exact hx 0 (by omega) 0 (by omega) rfl
    · exact hx 1 (by omega) 0 (by omega) rfl
    · exact hx 0 (by omega) 1 (by omega) rfl
    · exact hx 1 (by omega) 1 (by omega) rfl
  have m4 : ∀ a b c d x, 4 ≤ x → mem4 a b c d x = 0 := by
    intro a b c d x hx
    match x, hx with
    | x + 4, _ => rfl
  have hu : upper 2 0 2 (mem4 1 0 0 1) = 1 := by
    ext i j; fin_cases i <;> fin_cases j <;> simp [upper, mem4]
  have hlw : lower 2 0 2 (mem4 1 0 0 1) = 1 := by
    ext i j; fin_cases i <;> fin_cases j <;> simp [lower, mem4]
  have ha : arr 2 2 0 2 (mem4 0 1 1 0) = !![0, 1; 1, 0] := by
    ext i j; fin_cases i <;> fin_cases j <;> simp [arr, mem4]
  let rf : Getrf := fun _ _ _ _ _ => (mem4 1 0 0 1, fun _ => 1, 0)
  let ri : Getri := fun _ _ _ _ _ l s => if l = -1 then (s, ((2 : Nat) : ℝ)) else (mem4 0 1 1 0, 2)
  have hk1 : ∀ k : Nat, ((k : Int) = -1) = False := fun k => by simp only [eq_iff_iff, iff_false]; omega
  have ok : Lapack rf ri 2 0 2 (mem4 0 1 1 0) := by
    refine ⟨⟨fun x hx => ?_, ?_, ?_⟩, ⟨fun size _ => ⟨rfl, 2, le_rfl, rfl⟩, ?_, ?_, ?_⟩⟩
    · rw [m4 _ _ _ _ x (ne4 x hx)]; exact m4 _ _ _ _ x (ne4 x hx)
    · simp only [Factors, rf, hp, hu, hlw, ha]
      ext i j; fin_cases i <;> fin_cases j <;> simp
    · simp [rf, hu]
    · intro size k _ _ x hx
      simp only [ri, hk1, if_false, rf]
      rw [m4 _ _ _ _ x (ne4 x hx), m4 _ _ _ _ x (ne4 x hx)]
    · intro size k _ _ _ M hM
      simp only [Factors, rf, hp, hu, hlw, mul_one] at hM
      simp only [ri, hk1, if_false, ha]
      have e : ∀ i j, M i j = (1 : Matrix (Fin 2) (Fin 2) ℝ) (Equiv.swap 0 1 i) j := by
        intro i j
        have := congrFun (congrFun hM (Equiv.swap 0 1 i)) j
        simpa using this
      have e0 : ∀ j, M 0 j = (1 : Matrix (Fin 2) (Fin 2) ℝ) 1 j := fun j => by rw [e, Equiv.swap_apply_left]
      have e1 : ∀ j, M 1 j = (1 : Matrix (Fin 2) (Fin 2) ℝ) 0 j := fun j => by rw [e, Equiv.swap_apply_right]
      ext i j
      fin_cases i <;> fin_cases j <;> simp [Matrix.mul_apply, Fin.sum_univ_two, e0, e1]
    · rintro size k _ _ ⟨i, hi⟩
      simp only [rf, hu, one_apply_eq] at hi
      exact absurd hi one_ne_zero
  refine ⟨rf, ri, ok, ?_⟩
  obtain ⟨s', info, h1, h2, h3, -⟩ := C150_packed_partial rf ri 0 2 0 (mem4 0 1 1 0) (by omega) ok.hrf ok.hri
  have h0 : info = 0 := h2.2 (by rw [ha, Matrix.det_fin_two_of]; norm_num)
  subst h0
  refine ⟨s', h1, (h3 rfl).trans ?_⟩
  rw [ha]
  exact Matrix.inv_eq_right_inv (by ext i j; fin_cases i <;> fin_cases j <;> simp [Matrix.mul_apply, Fin.sum_univ_two])

end Verif.Inv
