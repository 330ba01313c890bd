import Verif.Proof.Mat
import Mathlib.Data.Matrix.Mul
import Mathlib.Tactic.Linarith

/-!
# C33, C34, C35: matrix and vector views

Specification: a view is the set of addresses of its elements. A mutator writes given values to the
elements of a view and leaves every other address alone.
-/

namespace Verif.Mat

variable {K : Type} [CommRing K]

/-- `m'` is `m` with element `k` of `v` set to `f k`, for every element, and nothing else changed. -/
def VecWrite (v : DVec) (m m' : Mem K) (f : Nat → K) : Prop :=
  (∀ k < v.len, m' (v.ref k) = f k) ∧ ∀ a, (∀ k < v.len, a ≠ v.ref k) → m' a = m a

/-- the same for the elements of a matrix. -/
def MatWrite (M : DMat) (m m' : Mem K) (f : Nat → Nat → K) : Prop :=
  (∀ i < M.rows, ∀ j < M.cols, m' (M.ref i j) = f i j) ∧
  ∀ a, (∀ i < M.rows, ∀ j < M.cols, a ≠ M.ref i j) → m' a = m a

/-- an element of `x` may be an element of `y` only in the same place: the vectors are disjoint or
identical, not partly overlapping. -/
def VecApart (x y : DVec) : Prop := ∀ k < x.len, ∀ l < y.len, x.ref k = y.ref l → k = l

def MatApart (X Y : DMat) : Prop := ∀ i < X.rows, ∀ j < X.cols, ∀ i' < Y.rows, ∀ j' < Y.cols,
  X.ref i j = Y.ref i' j' → i = i' ∧ j = j'

/-! ## C33: views -/

/-- **C33 (views).** Every element of a block, row, column or diagonal is the stated element of the
source, whose indices are in range. -/
theorem C33_views (src : DMat) :
    (∀ rs cs re ce B, block src rs cs re ce = some B →
      B.rows = re - rs ∧ B.cols = ce - cs ∧ B.ld = src.ld ∧ 0 < B.rows ∧ 0 < B.cols ∧
      ∀ i < B.rows, ∀ j < B.cols, rs + i < src.rows ∧ cs + j < src.cols ∧
        B.ref i j = src.ref (rs + i) (cs + j)) ∧
    (∀ r v, rowVec src r = some v → v.len = src.cols ∧
      ∀ j < v.len, r < src.rows ∧ j < src.cols ∧ v.ref j = src.ref r j) ∧
    (∀ c v, colVec src c = some v → v.len = src.rows ∧
      ∀ i < v.len, i < src.rows ∧ c < src.cols ∧ v.ref i = src.ref i c) ∧
    ((diagVec src).len = min src.rows src.cols ∧ ∀ i < (diagVec src).len, i < src.rows ∧ i < src.cols ∧
      (diagVec src).ref i = src.ref i i) := by
  refine ⟨?_, ?_, ?_, ?_⟩
  · intro rs cs re ce B h
    simp only [block] at h
    split at h
    · cases h
    · injection h with h
      subst h
      refine ⟨rfl, rfl, rfl, by simp only; omega, by simp only; omega, ?_⟩
      intro i hi j hj
      simp only at hi hj
      refine ⟨by omega, by omega, ?_⟩
      simp only [DMat.ref]; ring
  · intro r v h
    simp only [rowVec] at h
    split at h
    · cases h
    · injection h with h
      subst h
      refine ⟨rfl, fun j hj => ⟨by omega, hj, ?_⟩⟩
      simp only [DVec.ref, DMat.ref]; ring
  · intro r v h
    simp only [colVec] at h
    split at h
    · cases h
    · injection h with h
      subst h
      refine ⟨rfl, fun j hj => ⟨hj, by omega, ?_⟩⟩
      simp only [DVec.ref, DMat.ref]; ring
  · refine ⟨rfl, fun i hi => ?_⟩
    simp only [diagVec] at hi
    refine ⟨by omega, by omega, ?_⟩
    simp only [diagVec, DVec.ref, DMat.ref]; ring

/-- **C33 (bounds).** A view is granted exactly when it is nonempty and inside the source. -/
theorem C33_bounds (src : DMat) :
    (∀ rs cs re ce, (block src rs cs re ce).isSome ↔
      rs < re ∧ re ≤ src.rows ∧ cs < ce ∧ ce ≤ src.cols) ∧
    (∀ rs cs r c, (viewBlock src rs cs r c).isSome ↔
      0 < r ∧ rs + r ≤ src.rows ∧ 0 < c ∧ cs + c ≤ src.cols) ∧
    (∀ rs cs r c B, viewBlock src rs cs r c = some B → B.rows = r ∧ B.cols = c) ∧
    (∀ r, (rowVec src r).isSome ↔ r < src.rows) ∧
    (∀ c, (colVec src c).isSome ↔ c < src.cols) := by
  have hb : ∀ rs cs re ce, (block src rs cs re ce).isSome ↔
      rs < re ∧ re ≤ src.rows ∧ cs < ce ∧ ce ≤ src.cols := by
    intro rs cs re ce
    simp only [block]
    split <;> simp <;> omega
  refine ⟨hb, ?_, ?_, ?_, ?_⟩
  · intro rs cs r c
    rw [viewBlock, hb]; omega
  · intro rs cs r c B h
    obtain ⟨h1, h2, -⟩ := (C33_views src).1 _ _ _ _ _ h
    omega
  · intro r; simp only [rowVec]; split <;> simp <;> omega
  · intro r; simp only [colVec]; split <;> simp <;> omega

/-- Views of views: a block of a block is a block of the source. -/
theorem C33_block_block (src : DMat) (rs cs re ce rs' cs' re' ce' : Nat) (B B' : DMat)
    (h : block src rs cs re ce = some B) (h' : block B rs' cs' re' ce' = some B') :
    block src (rs + rs') (cs + cs') (rs + re') (cs + ce') = some B' := by
  simp only [block] at *
  split at h
  · cases h
  · injection h with h
    subst h
    split at h'
    · cases h'
    · injection h' with h'
      subst h'
      simp only at *
      rw [if_neg (by omega)]
      congr 1
      ext <;> simp only <;> first | omega | ring

/-- `AA_MAT_DIAG` takes the number of columns for the length of the diagonal: for a matrix with
fewer rows than columns its last elements are not on the diagonal, and may be outside the matrix. -/
theorem C33_violates_mat_diag :
    ∃ M : DMat, M.rows ≤ M.ld ∧ (∃ k < (diagMacro M).len, ∀ i < M.rows, ∀ j < M.cols,
      (diagMacro M).ref k ≠ M.ref i j) := by
  refine ⟨⟨1, 2, 0, 1⟩, by decide, 1, by decide, ?_⟩
  intro i hi j hj
  simp only at hi hj
  simp only [DVec.ref, diagMacro, DMat.ref]
  omega

/-! ## C33: mutators of vectors -/

omit [CommRing K] in
theorem forN_vec {v : DVec} (hv : 0 < v.inc) (h : Nat → Mem K → K)
    (hl : ∀ k < v.len, ∀ m m' : Mem K, (∀ a, (∀ l < v.len, l ≠ k → a ≠ v.ref l) → m a = m' a) →
      h k m = h k m') (m : Mem K) :
    VecWrite v m (forN v.len (fun k m => store m (v.ref k) (h k m)) m) (fun k => h k m) :=
  forN_store v.len v.ref h (fun _ _ _ _ e => vref_inj hv e) hl m

/-- **C33.** `aa_dvec_set`, `aa_dvec_zero`, `aa_dvec_scal`, `aa_dvec_inc`. -/
theorem C33_vector (v : DVec) (hv : 0 < v.inc) (a : K) (m : Mem K) :
    VecWrite v m (vset v a m) (fun _ => a) ∧
    VecWrite v m (vzero v m) (fun _ => 0) ∧
    VecWrite v m (vscal a v m) (fun k => a * m (v.ref k)) ∧
    VecWrite v m (vinc a v m) (fun k => m (v.ref k) + a) := by
  have self : ∀ k < v.len, ∀ l < v.len, l ≠ k → v.ref k ≠ v.ref l :=
    fun k _ l _ hne e => hne (vref_inj hv e).symm
  refine ⟨?_, ?_, ?_, ?_⟩
  · rw [vset, forPtr_eq _ _ _ hv]
    exact forN_vec hv (fun _ _ => a) (fun _ _ _ _ _ => rfl) m
  · rw [vzero, vset, forPtr_eq _ _ _ hv]
    exact forN_vec hv (fun _ _ => 0) (fun _ _ _ _ _ => rfl) m
  · exact forN_vec hv (fun k m => a * m (v.ref k))
      (fun k hk m m' h => by rw [h _ (self k hk)]) m
  · rw [vinc, sInc, forPtr_eq _ _ _ hv]
    exact forN_vec hv (fun k m => m (v.ref k) + a)
      (fun k hk m m' h => by rw [h _ (self k hk)]) m

/-- **C33.** `aa_dvec_copy` and `aa_dvec_axpy`; they fail exactly on different lengths. -/
theorem C33_vector2 (x y : DVec) (hy : 0 < y.inc) (ha : VecApart x y) (a : K) (m : Mem K) :
    (x.len ≠ y.len → vcopy x y m = none ∧ vaxpy a x y m = none) ∧
    (x.len = y.len → ∃ m1 m2, vcopy x y m = some m1 ∧ vaxpy a x y m = some m2 ∧
      VecWrite y m m1 (fun k => m (x.ref k)) ∧
      VecWrite y m m2 (fun k => a * m (x.ref k) + m (y.ref k))) := by
  refine ⟨fun h => by simp [vcopy, vaxpy, h], fun h => ?_⟩
  have self : ∀ k < y.len, ∀ l < y.len, l ≠ k → y.ref k ≠ y.ref l :=
    fun k _ l _ hne e => hne (vref_inj hy e).symm
  have cr : ∀ k < y.len, ∀ l < y.len, l ≠ k → x.ref k ≠ y.ref l :=
    fun k hk l hl hne e => hne (ha k (h ▸ hk) l hl e).symm
  refine ⟨_, _, by rw [vcopy, if_neg (not_not.2 h)], by rw [vaxpy, if_neg (not_not.2 h)], ?_, ?_⟩
  · rw [dcopy, h]
    exact forN_vec hy (fun k m => m (x.ref k)) (fun k hk m m' hm => hm _ (cr k hk)) m
  · rw [daxpy, h]
    exact forN_vec hy (fun k m => a * m (x.ref k) + m (y.ref k))
      (fun k hk m m' hm => by rw [hm _ (cr k hk), hm _ (self k hk)]) m

omit [CommRing K] in
/-- **C33.** `aa_dvec_swap` of disjoint vectors exchanges them and changes nothing else. -/
theorem C33_swap (x y : DVec) (hx : 0 < x.inc) (hy : 0 < y.inc) (h : x.len = y.len)
    (hd : ∀ k < x.len, ∀ l < y.len, x.ref k ≠ y.ref l) (m : Mem K) :
    ∃ m', vswap x y m = some m' ∧
      (∀ k < x.len, m' (x.ref k) = m (y.ref k) ∧ m' (y.ref k) = m (x.ref k)) ∧
      ∀ a, (∀ k < x.len, a ≠ x.ref k ∧ a ≠ y.ref k) → m' a = m a := by
  refine ⟨_, by rw [vswap, if_neg (not_not.2 h)], ?_⟩
  have := swap_fold x.ref y.ref (List.range x.len) List.nodup_range
    (fun _ _ _ _ e => vref_inj hx e) (fun _ _ _ _ e => vref_inj hy e)
    (fun a ha b hb => hd a (by simpa using ha) b (by rw [← h]; simpa using hb)) m
  simpa [dswap, forN, DVec.ref] using this

/-- **C33 (reductions).** `aa_dvec_dot`, `aa_dvec_ssd` and `aa_dmat_ssd` are the sums they name over
exactly the viewed elements. -/
theorem C33_reductions (m : Mem K) :
    (∀ x y : DVec, x.len = y.len → vdot x y m = some (∑ k ∈ Finset.range x.len, m (x.ref k) * m (y.ref k))) ∧
    (∀ x y : DVec, x.len = y.len → 0 < x.inc →
      vssd x y m = some (∑ k ∈ Finset.range x.len, (m (x.ref k) - m (y.ref k)) ^ 2)) ∧
    (∀ A B : DMat, A.rows = B.rows → A.cols = B.cols → A.rows ≤ A.ld →
      mssd A B m = some (∑ j ∈ Finset.range A.cols, ∑ i ∈ Finset.range A.rows,
        (m (A.ref i j) - m (B.ref i j)) ^ 2)) := by
  refine ⟨?_, ?_, ?_⟩
  · intro x y h
    rw [vdot, if_neg (not_not.2 h), forN_sum]; simp [DVec.ref]
  · intro x y h hx
    rw [vssd, if_neg (not_not.2 h), sSsd, forPtr2_eq _ _ _ _ _ hx]
    rw [forN_sum x.len (fun k => (m (x.data + k * x.inc) - m (y.data + k * y.inc)) *
      (m (x.data + k * x.inc) - m (y.data + k * y.inc)))]
    simp [DVec.ref, pow_two]
  · intro A B h1 h2 hld
    rw [mssd, if_neg (by simp [h1, h2])]
    congr 1
    by_cases h0 : A.ld = 0
    · have hr : A.rows = 0 := by omega
      rw [h0, Nat.mul_zero, Nat.add_zero, forPtr2_stop]
      simp [hr]
    · rw [forPtr2_eq _ _ _ _ _ (by omega)]
      have e : ∀ k a, sSsd A.rows a (A.data + k * A.ld) 1 (B.data + k * B.ld) 1 m =
          a + ∑ i ∈ Finset.range A.rows, (m (A.ref i k) - m (B.ref i k)) ^ 2 := by
        intro k a
        rw [sSsd, forPtr2_eq _ _ _ _ _ (by omega),
          forN_sum A.rows (fun i => (m (A.data + k * A.ld + i * 1) - m (B.data + k * B.ld + i * 1)) *
            (m (A.data + k * A.ld + i * 1) - m (B.data + k * B.ld + i * 1)))]
        congr 1
        refine Finset.sum_congr rfl (fun i _ => ?_)
        rw [pow_two]
        have e1 : A.data + k * A.ld + i * 1 = A.ref i k := by simp only [DMat.ref]; ring
        have e2 : B.data + k * B.ld + i * 1 = B.ref i k := by simp only [DMat.ref]; ring
        rw [e1, e2]
      simp only [e]
      rw [forN_sum, zero_add]

/-! ## C33: mutators of matrices -/

omit [CommRing K] in
theorem forN_mat {M : DMat} (hM : M.rows ≤ M.ld) (h : Nat → Nat → Mem K → K)
    (hl : ∀ j < M.cols, ∀ i < M.rows, ∀ m m' : Mem K,
      (∀ a, (∀ j' < M.cols, ∀ i' < M.rows, (j', i') ≠ (j, i) → a ≠ M.ref i' j') → m a = m' a) →
      h i j m = h i j m') (m : Mem K) :
    MatWrite M m (forN M.cols (fun j m => forN M.rows (fun i m => store m (M.ref i j) (h i j m)) m) m)
      (fun i j => h i j m) := by
  have := forN_store2 (K := K) M.cols M.rows (fun j i => M.ref i j) (fun j i => h i j)
    (fun j _ i hi j' _ i' hi' e => mref_inj hM hi hi' e) hl m
  exact ⟨fun i hi j hj => this.1 j hj i hi, fun a ha => this.2 a (fun j hj i hi => ha i hi j hj)⟩

theorem mat_self {M : DMat} (hM : M.rows ≤ M.ld) {j i : Nat} (hi : i < M.rows) :
    ∀ j' < M.cols, ∀ i' < M.rows, (j', i') ≠ (j, i) → M.ref i j ≠ M.ref i' j' := by
  intro j' _ i' hi' hne e
  obtain ⟨h1, h2⟩ := mref_inj hM hi hi' e
  exact hne (by rw [h1, h2])

/-- **C33.** `aa_dmat_set`, `aa_dmat_zero`, `aa_dmat_scal`. -/
theorem C33_matrix (A : DMat) (hA : A.rows ≤ A.ld) (a b : K) (m : Mem K) :
    MatWrite A m (mset A a b m) (fun i j => if i = j then b else a) ∧
    MatWrite A m (mzero A m) (fun _ _ => 0) ∧
    MatWrite A m (mscal A a m) (fun i j => a * m (A.ref i j)) := by
  refine ⟨?_, ?_, ?_⟩
  · exact forN_mat hA (fun i j _ => if i = j then b else a) (fun _ _ _ _ _ _ _ => rfl) m
  · have := forN_mat hA (fun i j (_ : Mem K) => if i = j then (0 : K) else 0) (fun _ _ _ _ _ _ _ => rfl) m
    simpa [mzero, mset, dlaset, DMat.ref] using this
  · exact forN_mat hA (fun i j m => a * m (A.ref i j))
      (fun j hj i hi m m' h => by rw [h _ (mat_self hA hi)]) m

/-- **C33.** `aa_dmat_copy`, `aa_dmat_axpy`: fail exactly on different shapes. -/
theorem C33_matrix2 (X Y : DMat) (hX : X.rows ≤ X.ld) (hY : Y.rows ≤ Y.ld) (ha : MatApart X Y)
    (a : K) (m : Mem K) :
    ((X.rows ≠ Y.rows ∨ X.cols ≠ Y.cols) → mcopy X Y m = none ∧ maxpy a X Y m = none) ∧
    (X.rows = Y.rows → X.cols = Y.cols → ∃ m1 m2, mcopy X Y m = some m1 ∧ maxpy a X Y m = some m2 ∧
      MatWrite Y m m1 (fun i j => m (X.ref i j)) ∧
      MatWrite Y m m2 (fun i j => a * m (X.ref i j) + m (Y.ref i j))) := by
  refine ⟨fun h => ⟨by rw [mcopy, if_pos h], by rw [maxpy, if_pos h]⟩, fun h1 h2 => ?_⟩
  have hn : ¬ (X.rows ≠ Y.rows ∨ X.cols ≠ Y.cols) := by simp [h1, h2]
  have cr : ∀ j < Y.cols, ∀ i < Y.rows, ∀ j' < Y.cols, ∀ i' < Y.rows, (j', i') ≠ (j, i) →
      X.ref i j ≠ Y.ref i' j' := by
    intro j hj i hi j' hj' i' hi' hne e
    obtain ⟨e1, e2⟩ := ha i (h1 ▸ hi) j (h2 ▸ hj) i' hi' j' hj' e
    exact hne (by rw [e1, e2])
  have main := forN_mat hY (fun i j m => a * m (X.ref i j) + m (Y.ref i j))
      (fun j hj i hi m m' hm => by rw [hm _ (cr j hj i hi), hm _ (mat_self hY hi)]) m
  refine ⟨_, (maxpy a X Y m).get ?_, by rw [mcopy, if_neg hn], ?_, ?_, ?_⟩
  · rw [maxpy, if_neg hn]; split <;> rfl
  · simp
  · rw [dlacpy, h1, h2]
    exact forN_mat hY (fun i j m => m (X.ref i j)) (fun j hj i hi m m' hm => hm _ (cr j hj i hi)) m
  · simp only [maxpy, if_neg hn]
    have goal : ∀ m', m' = forN Y.cols (fun j m => forN Y.rows (fun i m =>
        store m (Y.ref i j) (a * m (X.ref i j) + m (Y.ref i j))) m) m →
        MatWrite Y m m' (fun i j => a * m (X.ref i j) + m (Y.ref i j)) := by
      rintro _ rfl; exact main
    apply goal
    split
    · rename_i hc
      rw [Option.get_some, daxpy, h2, forN_mul, h1]
      congr 1
      funext j m
      congr 1
      funext i m
      have e1 : X.data + (Y.rows * j + i) * 1 = X.ref i j := by
        simp only [DMat.ref]; rw [← hc.1, h1]; ring
      have e2 : Y.data + (Y.rows * j + i) * 1 = Y.ref i j := by
        simp only [DMat.ref]; rw [← hc.2, h1]; ring
      rw [e1, e2]
    · rw [Option.get_some]
      by_cases h0 : X.ld = 0
      · have hr : Y.rows = 0 := by omega
        rw [h0, Nat.mul_zero, Nat.add_zero, forPtr2_stop, hr]
        exact (forN_id _ _).symm
      · rw [forPtr2_eq _ _ _ _ _ (by omega), h2]
        congr 1
        funext j m
        rw [daxpy, h1]
        congr 1
        funext i m
        have e1 : X.data + j * X.ld + i * 1 = X.ref i j := by simp only [DMat.ref]; ring
        have e2 : Y.data + j * Y.ld + i * 1 = Y.ref i j := by simp only [DMat.ref]; ring
        rw [e1, e2]

omit [CommRing K] in
/-- **C33.** `aa_dmat_trans`: fails exactly on shapes that are not transposed. -/
theorem C33_trans (A B : DMat) (hB : B.rows ≤ B.ld)
    (ha : ∀ i < A.rows, ∀ j < A.cols, ∀ i' < A.rows, ∀ j' < A.cols, A.ref i j = B.ref j' i' → i = i' ∧ j = j')
    (m : Mem K) :
    ((A.rows ≠ B.cols ∨ A.cols ≠ B.rows) → mtrans A B m = none) ∧
    (A.rows = B.cols → A.cols = B.rows → ∃ m', mtrans A B m = some m' ∧
      MatWrite B m m' (fun i j => m (A.ref j i))) := by
  refine ⟨fun h => by rw [mtrans, if_pos h], fun h1 h2 => ?_⟩
  refine ⟨_, by rw [mtrans, if_neg (by simp [h1, h2])], ?_⟩
  have e0 : B.data + A.cols = B.data + A.cols * 1 := by ring
  rw [e0, forPtr2_eq _ _ _ _ _ (by omega)]
  have := forN_store2 (K := K) B.rows B.cols (fun i j => B.ref i j) (fun i j m => m (A.ref j i))
    (fun i hi j _ i' hi' j' _ e => by
      obtain ⟨e1, e2⟩ := mref_inj hB hi hi' e; exact ⟨e2, e1⟩)
    (fun i hi j hj m m' hm => hm _ (fun i' hi' j' hj' hne e => by
      obtain ⟨e1, e2⟩ := ha j (h1 ▸ hj) i (h2 ▸ hi) j' (h1 ▸ hj') i' (h2 ▸ hi') e
      exact hne (by rw [e1, e2]))) m
  have e : forN A.cols (fun k m => dcopy A.rows (A.data + k * A.ld) 1 (B.data + k * 1) B.ld m) m =
      forN B.rows (fun i m => forN B.cols (fun j m => store m (B.ref i j) (m (A.ref j i))) m) m := by
    rw [h2]
    congr 1
    funext i m
    rw [dcopy, h1]
    congr 1
    funext j m
    have e1 : A.data + i * A.ld + j * 1 = A.ref j i := by simp only [DMat.ref]; ring
    have e2 : B.data + i * 1 + j * B.ld = B.ref i j := by simp only [DMat.ref]; ring
    rw [e1, e2]
  rw [e]
  exact this

/-- **C33, `aa_dmat_inc` (partial).** It adds to exactly the viewed elements when the matrix is not
square, or has no gap between its columns. -/
theorem C33_inc_partial (A : DMat) (hA : A.rows ≤ A.ld) (h : A.rows ≠ A.cols ∨ A.ld = A.rows)
    (a : K) (m : Mem K) :
    MatWrite A m (minc A a m) (fun i j => m (A.ref i j) + a) := by
  have main := forN_mat hA (fun i j m => m (A.ref i j) + a)
      (fun j hj i hi m m' h => by rw [h _ (mat_self hA hi)]) m
  have goal : ∀ m', m' = forN A.cols (fun j m => forN A.rows (fun i m =>
      store m (A.ref i j) (m (A.ref i j) + a)) m) m →
      MatWrite A m m' (fun i j => m (A.ref i j) + a) := by
    rintro _ rfl; exact main
  apply goal
  rw [minc]
  split
  · rename_i hs
    have hld : A.ld = A.rows := by rcases h with h | h; exact absurd hs h; exact h
    rw [sInc, forPtr_eq _ _ _ (by omega), forN_mul]
    congr 1
    funext j m
    congr 1
    funext i m
    have e1 : A.data + (A.rows * j + i) * 1 = A.ref i j := by simp only [DMat.ref]; rw [hld]; ring
    rw [e1]
  · by_cases h0 : A.ld = 0
    · have hr : A.rows = 0 := by omega
      rw [h0, Nat.mul_zero, Nat.add_zero, forPtr_stop, hr]
      exact (forN_id _ _).symm
    · rw [forPtr_eq _ _ _ (by omega)]
      congr 1
      funext j m
      rw [sInc, forPtr_eq _ _ _ (by omega)]
      congr 1
      funext i m
      have e1 : A.data + j * A.ld + i * 1 = A.ref i j := by simp only [DMat.ref]; ring
      rw [e1]

/-- **C33 is violated by `aa_dmat_inc`** on every square block with a gap between its columns: the
test `m == n` should be `m == ld` (src/mat.c:507). It changes memory outside the view, and leaves
the last element of the view alone. -/
theorem C33_violates_inc (A : DMat) (h2 : 2 ≤ A.rows) (hs : A.rows = A.cols) (hld : A.rows < A.ld)
    (a : K) (ha : a ≠ 0) (m : Mem K) :
    minc A a m (A.ref (A.rows - 1) (A.cols - 1)) = m (A.ref (A.rows - 1) (A.cols - 1)) ∧
    (∀ i < A.rows, ∀ j < A.cols, A.data + A.rows ≠ A.ref i j) ∧
    minc A a m (A.data + A.rows) ≠ m (A.data + A.rows) := by
  have hw : VecWrite ⟨A.rows * A.cols, A.data, 1⟩ m (minc A a m)
      (fun k => m (DVec.ref ⟨A.rows * A.cols, A.data, 1⟩ k) + a) := by
    rw [minc, if_pos hs]
    exact (C33_vector ⟨A.rows * A.cols, A.data, 1⟩ Nat.one_pos a m).2.2.2
  refine ⟨?_, ?_, ?_⟩
  · apply hw.2
    intro k hk
    simp only [DVec.ref, DMat.ref] at *
    intro e
    have e' : k = A.ld * (A.cols - 1) + (A.rows - 1) := by omega
    have h3 : (A.rows + 1) * (A.cols - 1) ≤ A.ld * (A.cols - 1) := Nat.mul_le_mul_right _ hld
    obtain ⟨r, hr⟩ : ∃ r, A.rows = r + 1 := ⟨A.rows - 1, by omega⟩
    rw [e', ← hs, hr] at hk
    rw [← hs, hr] at h3
    simp only [Nat.add_sub_cancel] at hk h3
    nlinarith
  · intro i hi j hj e
    simp only [DMat.ref] at e
    have : A.rows = A.ld * j + i := by omega
    rcases Nat.eq_zero_or_pos j with rfl | hj0
    · simp at this; omega
    · have := Nat.le_mul_of_pos_right A.ld hj0; omega
  · have h3 : A.rows < A.rows * A.cols := by rw [← hs]; nlinarith
    have := hw.1 A.rows h3
    simp only [DVec.ref, Nat.mul_one] at this
    rw [this]
    intro e
    exact ha (by simpa using e)

/-! Non-trivial cases: a 2x2 block at row 1, column 1 of a 3x4 matrix with leading dimension 5. -/
example : block ⟨3, 4, 100, 5⟩ 1 1 3 3 = some ⟨2, 2, 106, 5⟩ := by decide
example : MatApart ⟨2, 2, 106, 5⟩ ⟨2, 2, 0, 2⟩ := by
  intro i hi j hj i' hi' j' hj' e
  simp only [DMat.ref] at *
  omega
example : VecApart ⟨3, 0, 2⟩ ⟨3, 1, 2⟩ ∧ VecApart ⟨3, 0, 2⟩ ⟨3, 0, 2⟩ := by
  constructor <;> intro k _ l _ e <;> simp only [DVec.ref] at * <;> omega

/-! ## C34: slices -/

/-- **C34 (partial).** A granted slice contains only source elements `start + k*step` below `stop`,
consecutive from `start`; it misses at most the last of them, and none when `step` divides
`stop - start`. -/
theorem C34_slice_partial (src : DVec) (start stop step : Nat) (v : DVec)
    (h : slice src start stop step = some v) :
    start ≤ stop ∧ stop ≤ src.len ∧ 0 < step ∧
    (∀ k < v.len, start + k * step < stop ∧ start + k * step < src.len ∧
      v.ref k = src.ref (start + k * step)) ∧
    (∀ k, start + k * step < stop → k ≤ v.len) ∧
    (step ∣ stop - start → ∀ k, start + k * step < stop → k < v.len) := by
  simp only [slice] at h
  split at h
  · cases h
  · split at h
    · cases h
    · rename_i h1 h2
      injection h with h
      subst h
      refine ⟨by omega, by omega, by omega, ?_, ?_, ?_⟩
      · intro k hk
        simp only at hk
        have : k * step < stop - start := by
          have h4 := Nat.div_mul_le_self (stop - start) step
          have h5 := (Nat.mul_lt_mul_right (by omega : 0 < step)).2 hk
          omega
        refine ⟨by omega, by omega, ?_⟩
        simp only [DVec.ref]; ring
      · intro k hk
        simp only
        rw [Nat.le_div_iff_mul_le (by omega)]
        omega
      · rintro ⟨c, hc⟩ k hk
        simp only
        rw [hc, Nat.mul_div_cancel_left _ (by omega)]
        have : k * step < c * step := by rw [Nat.mul_comm c]; omega
        exact Nat.lt_of_mul_lt_mul_right this

/-- **C34 (bounds).** The slice is granted exactly when it is in bounds and the step is positive. -/
theorem C34_bounds (src : DVec) (start stop step : Nat) :
    (slice src start stop step).isSome ↔ start ≤ stop ∧ stop ≤ src.len ∧ 0 < step := by
  simp only [slice]
  split
  · simp; omega
  · split <;> simp <;> omega

/-- **C34 is violated**: whenever `step` does not divide `stop - start` the last element of the
slice is missing, because the length is rounded down (src/mat.c:113). -/
theorem C34_violates_slice (src : DVec) (start stop step : Nat) (v : DVec)
    (h : slice src start stop step = some v) (hd : ¬ step ∣ stop - start) :
    start + v.len * step < stop := by
  have hb := (C34_bounds src start stop step).1 (by rw [h]; rfl)
  simp only [slice] at h
  rw [if_neg (by omega), if_neg (by omega)] at h
  injection h with h
  subst h
  simp only
  have h1 := Nat.div_mul_le_self (stop - start) step
  have h2 : (stop - start) / step * step ≠ stop - start := fun e => hd ⟨_, by rw [Nat.mul_comm]; exact e.symm⟩
  omega

example : slice ⟨10, 0, 1⟩ 1 8 3 = some ⟨2, 1, 3⟩ ∧ ¬ 3 ∣ 8 - 1 := by decide
example : slice ⟨10, 0, 2⟩ 1 7 3 = some ⟨2, 2, 6⟩ := by decide

/-- **C34 is violated by `DVec::slice`**: it passes `stop` for the step, so a slice with `start > 0`
is always empty, whatever it should contain, and a slice from 0 has only the first element. -/
theorem C34_violates_slice_cpp (src : DVec) (start stop step : Nat) (v : DVec)
    (h : sliceCpp src start stop step = some v) :
    (0 < start → v.len = 0) ∧ (start = 0 → v.len = 1) := by
  have hb := (C34_bounds src start stop stop).1 (by rw [sliceCpp] at h; rw [h]; rfl)
  simp only [sliceCpp, slice] at h
  rw [if_neg (by omega), if_neg (by omega)] at h
  injection h with h
  subst h
  simp only
  refine ⟨fun h0 => Nat.div_eq_of_lt (by omega), fun h0 => ?_⟩
  subst h0
  exact Nat.div_self hb.2.2

example : (sliceCpp ⟨10, 0, 1⟩ 2 6 1).isSome ∧ (slice ⟨10, 0, 1⟩ 2 6 1).map (·.len) = some 4 := by decide

/-- **C34**: a constant view drops its increment (include/amino/mat.hpp:440-442); it is right only
for increment one or length at most one. -/
theorem C34_violates_const_view (len data inc : Nat) :
    (∀ k < len, (viewConstCpp len data inc).ref k = (viewCpp len data inc).ref k) ↔ inc = 1 ∨ len ≤ 1 := by
  simp only [viewConstCpp, viewCpp, DVec.ref]
  constructor
  · intro h
    by_contra hc
    have := h 1 (by omega)
    omega
  · rintro (rfl | h) k hk
    · rfl
    · have : k = 0 := by omega
      subst this; simp

/-! ## C35: products -/

/-- the matrix held in a view. -/
def DMat.den (A : DMat) (m : Mem K) : Matrix (Fin A.rows) (Fin A.cols) K := fun i j => m (A.ref i j)

/-- shape of `op(A)`. -/
def DMat.opRows (t : Bool) (A : DMat) : Nat := if t then A.cols else A.rows
def DMat.opCols (t : Bool) (A : DMat) : Nat := if t then A.rows else A.cols

/-- the element `(i,k)` of `op(A)`. -/
def DMat.op (t : Bool) (A : DMat) (m : Mem K) (i k : Nat) : K := if t then m (A.ref k i) else m (A.ref i k)

/-- no element of `A` is an element of `C`. -/
def MatDisjoint (A C : DMat) : Prop := ∀ i < A.rows, ∀ j < A.cols, ∀ i' < C.rows, ∀ j' < C.cols,
  A.ref i j ≠ C.ref i' j'

/-- **C35 (vectors).** `aa_dmat_gemv` accepts exactly the shapes for which `op(A) x` is defined and
has the size of `y`, reads `A` and `x` only inside their views (the sums range over them), and
stores `alpha op(A) x + beta y` in `y`. -/
theorem C35_gemv (t : Bool) (alpha beta : K) (A : DMat) (x y : DVec) (m : Mem K) :
    ((gemv t alpha A x beta y m).isSome ↔ A.opCols t = x.len ∧ A.opRows t = y.len) ∧
    (0 < y.inc → (∀ i < A.rows, ∀ j < A.cols, ∀ k < y.len, A.ref i j ≠ y.ref k) →
      (∀ k < x.len, ∀ l < y.len, x.ref k ≠ y.ref l) →
      ∀ m', gemv t alpha A x beta y m = some m' →
        VecWrite y m m' (fun i => alpha * ∑ k ∈ Finset.range x.len, A.op t m i k * m (x.ref k) +
          beta * m (y.ref i))) := by
  constructor
  · cases t <;> (simp [gemv, DMat.opCols, DMat.opRows]; try tauto)
  · intro hy hA hx m' h
    have key : ∀ (t : Bool) (r c : Nat), r = y.len → c = x.len →
        (∀ i < r, ∀ k < c, opAddr t A.data A.ld i k = (if t then A.ref k i else A.ref i k) ∧
          ∀ l < y.len, opAddr t A.data A.ld i k ≠ y.ref l) →
        VecWrite y m (forN r (fun i m => store m (y.data + i * y.inc)
          (alpha * forN c (fun k s => s + m (opAddr t A.data A.ld i k) * m (x.data + k * x.inc)) 0 +
            beta * m (y.data + i * y.inc))) m)
        (fun i => alpha * ∑ k ∈ Finset.range x.len, A.op t m i k * m (x.ref k) + beta * m (y.ref i)) := by
      rintro t r c rfl rfl hr
      have := forN_vec hy (fun i m =>
        alpha * forN x.len (fun k s => s + m (opAddr t A.data A.ld i k) * m (x.data + k * x.inc)) 0 +
            beta * m (y.data + i * y.inc)) (fun i hi m m' hm => ?_) m
      · refine ⟨fun i hi => ?_, this.2⟩
        refine (this.1 i hi).trans ?_
        simp only [forN_sum, zero_add]
        congr 2
        refine Finset.sum_congr rfl (fun k hk => ?_)
        rw [(hr i hi k (Finset.mem_range.1 hk)).1, DMat.op]
        cases t <;> rfl
      · simp only [forN_sum, zero_add]
        congr 1
        · congr 1
          refine Finset.sum_congr rfl (fun k hk => ?_)
          have hk' := Finset.mem_range.1 hk
          rw [hm _ (fun l hl _ => (hr i hi k hk').2 l hl),
            hm (x.data + k * x.inc) (fun l hl _ => hx k hk' l hl)]
        · rw [hm (y.data + i * y.inc) (fun l hl hne e => hne (vref_inj (v := y) hy e).symm)]
    cases t
    · simp only [gemv, Bool.false_eq_true, if_false] at h
      split at h
      · cases h
      · rename_i hs
        push Not at hs
        injection h with h
        subst h
        refine key false A.rows A.cols hs.1 hs.2 (fun i hi k hk => ⟨rfl, ?_⟩)
        intro l hl
        exact hA i hi k hk l hl
    · simp only [gemv, if_true] at h
      split at h
      · cases h
      · rename_i hs
        push Not at hs
        injection h with h
        subst h
        refine key true A.cols A.rows hs.2 hs.1 (fun i hi k hk => ⟨rfl, ?_⟩)
        intro l hl
        exact hA k hk i hi l hl

/-- **C35 (`aa_dmat_gemm`, partial).** Without transposes the size checks are exactly that the
product is defined and has the shape of `C`, and the result is `alpha A B + beta C`. The same holds
for square matrices with any transposes. -/
theorem C35_gemm_partial (ta tb : Bool) (alpha beta : K) (A B C : DMat) (m : Mem K)
    (hsq : (ta = true → A.rows = A.cols) ∧ (tb = true → B.rows = B.cols)) :
    ((gemm ta tb alpha A B beta C m).isSome ↔
      A.opRows ta = C.rows ∧ A.opCols ta = B.opRows tb ∧ B.opCols tb = C.cols) ∧
    (C.rows ≤ C.ld → MatDisjoint A C → MatDisjoint B C →
      ∀ m', gemm ta tb alpha A B beta C m = some m' →
        MatWrite C m m' (fun i j => alpha * ∑ k ∈ Finset.range A.cols, A.op ta m i k * B.op tb m k j +
          beta * m (C.ref i j))) := by
  obtain ⟨sa, sb⟩ := hsq
  constructor
  · have e : (gemm ta tb alpha A B beta C m).isSome ↔
      A.rows = C.rows ∧ A.cols = B.rows ∧ B.cols = C.cols := by
      simp only [gemm, gemmOk]
      split_ifs with h <;> simp at h ⊢
    rw [e]
    cases ta <;> cases tb <;> simp only [DMat.opRows, DMat.opCols, if_true, Bool.false_eq_true, if_false]
    · have := sb rfl; omega
    · have := sa rfl; omega
    · have := sb rfl; have := sa rfl; omega
  · intro hC hA hB m' h
    unfold gemm at h
    by_cases hs : gemmOk A B C = true
    swap
    · rw [if_neg hs] at h
      cases h
    rw [if_pos hs] at h
    simp only [gemmOk, decide_eq_true_eq] at hs
    injection h with h
    subst h
    obtain ⟨s1, s2, s3⟩ := hs
    have ra : ∀ i < C.rows, ∀ k < A.cols, opAddr ta A.data A.ld i k = (if ta then A.ref k i else A.ref i k) ∧
        ∀ i' < C.rows, ∀ j' < C.cols, opAddr ta A.data A.ld i k ≠ C.ref i' j' := by
      intro i hi k hk
      cases ta
      · exact ⟨rfl, fun i' hi' j' hj' => hA i (by omega) k hk i' hi' j' hj'⟩
      · have := sa rfl
        exact ⟨rfl, fun i' hi' j' hj' => hA k (by omega) i (by omega) i' hi' j' hj'⟩
    have rb : ∀ k < A.cols, ∀ j < C.cols, opAddr tb B.data B.ld k j = (if tb then B.ref j k else B.ref k j) ∧
        ∀ i' < C.rows, ∀ j' < C.cols, opAddr tb B.data B.ld k j ≠ C.ref i' j' := by
      intro k hk j hj
      cases tb
      · exact ⟨rfl, fun i' hi' j' hj' => hB k (by omega) j (by omega) i' hi' j' hj'⟩
      · have := sb rfl
        exact ⟨rfl, fun i' hi' j' hj' => hB j (by omega) k (by omega) i' hi' j' hj'⟩
    have main := forN_mat hC (fun i j m =>
      alpha * forN A.cols (fun k s => s + m (opAddr ta A.data A.ld i k) * m (opAddr tb B.data B.ld k j)) 0 +
        beta * m (C.ref i j)) (fun j hj i hi m m' hm => ?_) m
    · rw [dgemm, s1, s3]
      refine ⟨fun i hi j hj => ?_, main.2⟩
      refine (main.1 i hi j hj).trans ?_
      simp only [forN_sum, zero_add]
      congr 2
      refine Finset.sum_congr rfl (fun k hk => ?_)
      have hk' := Finset.mem_range.1 hk
      rw [(ra i hi k hk').1, (rb k hk' j hj).1, DMat.op, DMat.op]
      cases ta <;> cases tb <;> rfl
    · simp only [forN_sum, zero_add]
      rw [hm _ (mat_self hC hi)]
      congr 2
      refine Finset.sum_congr rfl (fun k hk => ?_)
      have hk' := Finset.mem_range.1 hk
      rw [hm _ (fun j' hj' i' hi' _ => (ra i hi k hk').2 i' hi' j' hj'),
        hm _ (fun j' hj' i' hi' _ => (rb k hk' j hj).2 i' hi' j' hj')]

/-- the result of `C35_gemm_partial` as a product of Mathlib matrices. -/
theorem C35_gemm_matrix (alpha beta : K) (A B C : DMat) (m m' : Mem K) (hC : C.rows ≤ C.ld)
    (hA : MatDisjoint A C) (hB : MatDisjoint B C) (h : gemm false false alpha A B beta C m = some m') :
    ∃ (h1 : A.rows = C.rows) (h2 : A.cols = B.rows) (h3 : B.cols = C.cols),
      C.den m' = alpha • Matrix.reindex (finCongr h1) (finCongr h3)
        (A.den m * Matrix.reindex (finCongr h2.symm) (Equiv.refl _) (B.den m)) + beta • C.den m := by
  have hp := C35_gemm_partial false false alpha beta A B C m (by simp)
  obtain ⟨h1, h2, h3⟩ := hp.1.1 (by rw [h]; rfl)
  simp only [DMat.opRows, DMat.opCols, Bool.false_eq_true, if_false] at h1 h2 h3
  refine ⟨h1, h2, h3, ?_⟩
  ext i j
  have := (hp.2 hC hA hB m' h).1 i i.2 j j.2
  simp only [Finset.sum_range] at this
  simp only [Matrix.add_apply, Matrix.smul_apply, smul_eq_mul, Matrix.reindex_apply,
    Matrix.submatrix_apply, Matrix.mul_apply]
  exact this

/-- **C35 is violated by `aa_dmat_gemm`**: its checks do not look at the transposes. (1) It rejects
`A^T B` although that product is defined, and (2) it accepts `A^T B` with shapes for which the
product is not defined, and then reads outside `A`. -/
theorem C35_violates_gemm :
    (∃ A B C : DMat, A.opRows true = C.rows ∧ A.opCols true = B.opRows false ∧ B.opCols false = C.cols ∧
      A.rows ≤ A.ld ∧ B.rows ≤ B.ld ∧ C.rows ≤ C.ld ∧
      ∀ (alpha beta : K) (m : Mem K), gemm true false alpha A B beta C m = none) ∧
    (∃ A B C : DMat, A.opRows true ≠ C.rows ∧ A.rows ≤ A.ld ∧ B.rows ≤ B.ld ∧ C.rows ≤ C.ld ∧
      (∀ (alpha beta : K) (m : Mem K), (gemm true false alpha A B beta C m).isSome) ∧
      ∃ a ∈ gemmReadsA true A, ∀ i < A.rows, ∀ j < A.cols, a ≠ A.ref i j) := by
  refine ⟨⟨⟨3, 2, 0, 3⟩, ⟨3, 1, 6, 3⟩, ⟨2, 1, 9, 2⟩, by decide, by decide, by decide, by decide, by decide,
    by decide, fun _ _ _ => rfl⟩, ⟨⟨3, 2, 0, 3⟩, ⟨2, 1, 6, 2⟩, ⟨3, 1, 9, 3⟩, by decide, by decide, by decide,
    by decide, fun _ _ _ => rfl, 6, by decide, by decide⟩⟩

/-- a concrete product: `A = [1 2; 3 4]`, `B = [5; 6]`, `C = 2 A B + C`. -/
example : (gemm false false 2 ⟨2, 2, 0, 2⟩ ⟨2, 1, 4, 2⟩ 1 ⟨2, 1, 6, 2⟩
    (fun a => ([1, 3, 2, 4, 5, 6, 100, 200] : List Int).getD a 0)).map (fun m => (m 6, m 7)) =
    some (134, 278) := by decide

end Verif.Mat
