import Verif.Model.MatAlloc
import Mathlib.Tactic.Linarith
import Mathlib.Tactic.Ring
import Mathlib.Tactic.NormNum

/-!
# C148: allocating and duplicating vectors and matrices
-/

namespace Verif.MatAlloc

/-- Address of element `i` of a vector. -/
def Vec.el (v : Vec) (i : Nat) : Nat := v.data + 8 * (i * v.inc)

/-- Address of element `(i, j)` of a matrix. -/
def Mtx.el (M : Mtx) (i j : Nat) : Nat := M.data + 8 * (i + j * M.ld)

/-- The double at `a` lies in the block, behind a descriptor of `desc` bytes, and aligned if the block is. -/
structure Good (b : Blk) (desc a : Nat) : Prop where
  lo : b.addr + desc ≤ a
  hi : a + 8 ≤ b.addr + b.size
  al : 8 ∣ b.addr → 8 ∣ a

/-- The double at `a` does not meet the block. -/
def Apart (b : Blk) (a : Nat) : Prop := a + 8 ≤ b.addr ∨ b.addr + b.size ≤ a

/-! ## Lemmas -/

theorem cInt_small {n : Nat} (h : n < 2 ^ 31) : cInt n = n := by
  have e : n % 2 ^ 32 = n := Nat.mod_eq_of_lt (by omega)
  unfold cInt
  rw [e, if_pos h]

theorem blockSize_small {desc n : Nat} (h : desc + pad desc + n * 8 < 2 ^ 64) :
    blockSize desc n = desc + pad desc + n * 8 := by
  unfold blockSize word
  rw [Nat.mod_eq_of_lt (show n * 8 < 2 ^ 64 by omega), Nat.mod_eq_of_lt h]

/-- What a loop of stores leaves at an address none of them meets, or exactly the last does. -/
theorem loop_frame (P : Int → Prop) (f : Nat → Mem → Mem) (n : Nat)
    (h : ∀ k, k < n → ∀ m a, ¬ P a → f k m a = m a) (m : Mem) (a : Int) (ha : ¬ P a) :
    loop n f m a = m a := by
  induction n with
  | zero => rfl
  | succ n ih =>
    rw [loop, h n (by omega) _ _ ha]
    exact ih fun k hk => h k (by omega)

/-- Stores to distinct addresses that read only outside of them. -/
theorem loop_copy (n : Nat) (d s : Nat → Int) (hd : ∀ i j, i < n → j < n → d i = d j → i = j)
    (hs : ∀ i j, i < n → j < n → s i ≠ d j) (m : Mem) (k : Nat) (hk : k < n) :
    loop n (fun k m => store m (d k) (m (s k))) m (d k) = m (s k) := by
  have fr : ∀ n', n' ≤ n → ∀ a, (∀ j, j < n' → a ≠ d j) →
      loop n' (fun k m => store m (d k) (m (s k))) m a = m a := by
    intro n' _ a ha
    exact loop_frame (fun a => ∃ j, j < n' ∧ a = d j) _ n' (fun k hk m a hn => by
      simp only [store]
      rw [if_neg fun e => hn ⟨k, hk, e⟩]) m a (fun ⟨j, hj, e⟩ => ha j hj e)
  induction n with
  | zero => omega
  | succ n ih =>
    rw [loop]
    by_cases e : k = n
    · subst e
      simp only [store, if_true]
      exact fr k (by omega) _ fun j hj => hs k j (by omega) (by omega)
    · simp only [store]
      rw [if_neg fun h => e (hd k n hk (by omega) h)]
      exact ih (fun i j hi hj => hd i j (by omega) (by omega)) (fun i j hi hj => hs i j (by omega) (by omega))
        (by omega) fun n' hn' => fr n' (by omega)

/-! ## C148 -/

/-- C148, vectors: the vector has the length asked for, and its elements lie behind each other in the block,
behind the descriptor. Partial: for sizes whose bytes can be counted, and only if there is memory. -/
theorem C148_vector_partial (len a : Nat) (h : 32 + 8 * len < 2 ^ 64) :
    ∃ b v, vecAlloc len (some a) = .ok (b, v) ∧ b.addr = a ∧ v.len = len ∧ v.inc = 1 ∧
      (∀ i, i < len → Good b 24 (v.el i)) ∧
      ∀ i j, i < len → j < len → i ≠ j → v.el i + 8 ≤ v.el j ∨ v.el j + 8 ≤ v.el i := by
  have e : blockSize 24 len = 32 + len * 8 := by
    rw [blockSize_small] <;> simp only [pad] <;> omega
  unfold vecAlloc block
  rw [e]
  simp only [if_neg (show ¬ 32 + len * 8 < 24 by omega)]
  refine ⟨_, _, rfl, rfl, rfl, rfl, fun i hi => ⟨?_, ?_, ?_⟩, fun i j hi hj hne => ?_⟩
  all_goals simp only [Vec.el, pad]
  all_goals omega

/-- C148, matrices. Partial: for sizes whose bytes can be counted, and only if there is memory. -/
theorem C148_matrix_partial (rows cols a : Nat) (h : 40 + 8 * (rows * cols) < 2 ^ 64) :
    ∃ b M, matAlloc rows cols (some a) = .ok (b, M) ∧ b.addr = a ∧ M.rows = rows ∧ M.cols = cols ∧
      (∀ i j, i < rows → j < cols → Good b 32 (M.el i j)) ∧
      ∀ i j i' j', i < rows → j < cols → i' < rows → j' < cols → (i, j) ≠ (i', j') →
        M.el i j + 8 ≤ M.el i' j' ∨ M.el i' j' + 8 ≤ M.el i j := by
  have w : word (rows * cols) = rows * cols := Nat.mod_eq_of_lt (by omega)
  have e : blockSize 32 (rows * cols) = 40 + rows * cols * 8 := by
    rw [blockSize_small] <;> simp only [pad] <;> omega
  unfold matAlloc block
  rw [w, e]
  simp only [if_neg (show ¬ 40 + rows * cols * 8 < 32 by omega)]
  refine ⟨_, _, rfl, rfl, rfl, rfl, fun i j hi hj => ⟨?_, ?_, ?_⟩, fun i j i' j' hi hj hi' hj' hne => ?_⟩
  · simp only [Mtx.el]; omega
  · have : (j + 1) * rows ≤ cols * rows := Nat.mul_le_mul_right _ hj
    have e2 : (j + 1) * rows = j * rows + rows := by ring
    have e3 : cols * rows = rows * cols := Nat.mul_comm _ _
    simp only [Mtx.el, pad]; omega
  · simp only [Mtx.el, pad]; omega
  · have key : i + j * rows ≠ i' + j' * rows := by
      intro he
      have hj2 : j = j' := by
        rcases Nat.lt_trichotomy j j' with h | h | h
        · have : (j + 1) * rows ≤ j' * rows := Nat.mul_le_mul_right _ h
          have e2 : (j + 1) * rows = j * rows + rows := by ring
          omega
        · exact h
        · have : (j' + 1) * rows ≤ j * rows := Nat.mul_le_mul_right _ h
          have e2 : (j' + 1) * rows = j' * rows + rows := by ring
          omega
      subst hj2
      exact hne (by rw [show i = i' by omega])
    simp only [Mtx.el]; omega

/-- C148, duplicates of vectors: the elements are those of the source, and nothing outside of the new block
has changed. Partial: for lengths and increments that are `int`s. -/
theorem C148_vector_dup_partial (src : Vec) (a : Nat) (m : Mem) (hl : src.len < 2 ^ 31)
    (hi : src.inc < 2 ^ 31) (hs : ∀ k, k < src.len → Apart ⟨a, 32 + 8 * src.len⟩ (src.el k)) :
    ∃ b v m', vecDup src (some a) m = .ok (b, v, m') ∧ vecAlloc src.len (some a) = .ok (b, v) ∧
      (∀ k, k < src.len → m' (v.el k) = m (src.el k)) ∧
      ∀ c : Nat, Apart b c → m' c = m c := by
  have e : blockSize 24 src.len = 32 + src.len * 8 := by
    rw [blockSize_small] <;> simp only [pad] <;> omega
  have hv : vecAlloc src.len (some a) = .ok (⟨a, 32 + src.len * 8⟩, ⟨src.len, a + 32, 1⟩) := by
    unfold vecAlloc block
    rw [e]
    simp only [if_neg (show ¬ 32 + src.len * 8 < 24 by omega)]
    rfl
  refine ⟨_, _, dcopy (cInt src.len) src.data (cInt src.inc) (a + 32 : Nat) (cInt 1) m, ?_, hv, ?_, ?_⟩
  · unfold vecDup
    simp only [hv]
    rw [if_neg (by rw [cInt_small hl]; simp only [Int.toNat_natCast]; omega)]
  · intro k hk
    rw [cInt_small hl, cInt_small hi, cInt_small (show 1 < 2 ^ 31 by decide)]
    have := loop_copy src.len (fun k => ((a + 32 : Nat) : Int) + 8 * off src.len (1 : Nat) k)
      (fun k => (src.data : Int) + 8 * off src.len (src.inc : Nat) k) (fun i j _ _ h => by
        simp only [off, Int.natCast_nonneg, if_true] at h
        omega) (fun i j hi hj h => by
        have q := hs i hi
        simp only [off, Int.natCast_nonneg, if_true] at h
        simp only [Apart, Vec.el] at q
        have p : ((i * src.inc : Nat) : Int) = (i : Int) * src.inc := by push_cast; rfl
        omega) m k hk
    unfold dcopy
    rw [Int.toNat_natCast]
    have e1 : (((⟨src.len, a + 32, 1⟩ : Vec).el k : Nat) : Int) =
        ((a + 32 : Nat) : Int) + 8 * off src.len (1 : Nat) k := by
      simp [off, Vec.el]
    have e2 : ((src.el k : Nat) : Int) = (src.data : Int) + 8 * off src.len (src.inc : Nat) k := by
      simp [off, Vec.el]
    rw [e1, e2]
    exact this
  · intro c hc
    unfold dcopy
    rw [cInt_small hl, cInt_small (show 1 < 2 ^ 31 by decide), Int.toNat_natCast]
    refine loop_frame (fun x => ∃ k : Nat, k < src.len ∧ x = ((a + 32 : Nat) : Int) + 8 * k) _ _ ?_ m c ?_
    · intro k hk m x hx
      simp only [store]
      rw [if_neg]
      intro h
      exact hx ⟨k, hk, by simpa [off] using h⟩
    · rintro ⟨k, hk, h⟩
      simp only [Apart] at hc
      omega

theorem loop2_copy (rows cols : Nat) (d s : Nat → Nat → Int)
    (hd : ∀ i j i' j', i < rows → j < cols → i' < rows → j' < cols → d i j = d i' j' → i = i' ∧ j = j')
    (hs : ∀ i j i' j', i < rows → j < cols → i' < rows → j' < cols → s i j ≠ d i' j') (m : Mem)
    (i j : Nat) (hi : i < rows) (hj : j < cols) :
    loop cols (fun j => loop rows fun i m => store m (d i j) (m (s i j))) m (d i j) = m (s i j) := by
  have inner : ∀ j m a, (∀ i, i < rows → a ≠ d i j) →
      loop rows (fun i m => store m (d i j) (m (s i j))) m a = m a := by
    intro j m a ha
    exact loop_frame (fun a => ∃ i, i < rows ∧ a = d i j) _ rows (fun k hk m a hn => by
      simp only [store]
      rw [if_neg fun e => hn ⟨k, hk, e⟩]) m a (fun ⟨i, hi, e⟩ => ha i hi e)
  have outer : ∀ n, n ≤ cols → ∀ a, (∀ i j, i < rows → j < n → a ≠ d i j) →
      loop n (fun j => loop rows fun i m => store m (d i j) (m (s i j))) m a = m a := by
    intro n _ a ha
    exact loop_frame (fun a => ∃ i j, i < rows ∧ j < n ∧ a = d i j) _ n (fun k hk m a hn =>
      inner k m a fun i hi e => hn ⟨i, k, hi, hk, e⟩) m a (fun ⟨i, j, hi, hj, e⟩ => ha i j hi hj e)
  induction cols with
  | zero => omega
  | succ n ih =>
    rw [loop]
    by_cases e : j = n
    · subst e
      rw [loop_copy rows (fun i => d i j) (fun i => s i j)
        (fun i i' h1 h2 h => (hd i j i' j h1 (by omega) h2 (by omega) h).1)
        (fun i i' h1 h2 => hs i j i' j h1 (by omega) h2 (by omega)) _ i hi]
      exact outer j (by omega) _ fun i' j' h1 h2 => hs i j i' j' hi hj h1 (by omega)
    · rw [inner n _ _ fun i' hi' h => e (hd i j i' n hi hj hi' (by omega) h).2]
      exact ih (fun i j i' j' h1 h2 h3 h4 => hd i j i' j' h1 (by omega) h3 (by omega))
        (fun i j i' j' h1 h2 h3 h4 => hs i j i' j' h1 (by omega) h3 (by omega)) (by omega)
        fun n' hn' => outer n' (by omega)

/-- C148, duplicates of matrices. Partial: for sizes that are `int`s. -/
theorem C148_matrix_dup_partial (src : Mtx) (a : Nat) (m : Mem) (hr : src.rows < 2 ^ 31)
    (hc : src.cols < 2 ^ 31) (hld : src.ld < 2 ^ 31) (hsz : 40 + 8 * (src.rows * src.cols) < 2 ^ 64)
    (hs : ∀ i j, i < src.rows → j < src.cols → Apart ⟨a, 40 + 8 * (src.rows * src.cols)⟩ (src.el i j)) :
    ∃ b M m', matDup src (some a) m = .ok (b, M, m') ∧ matAlloc src.rows src.cols (some a) = .ok (b, M) ∧
      (∀ i j, i < src.rows → j < src.cols → m' (M.el i j) = m (src.el i j)) ∧
      ∀ c : Nat, Apart b c → m' c = m c := by
  obtain ⟨b, M, h1, h2, h3, h4, h5, h6⟩ := C148_matrix_partial src.rows src.cols a hsz
  have w : word (src.rows * src.cols) = src.rows * src.cols := Nat.mod_eq_of_lt (by omega)
  have e : blockSize 32 (src.rows * src.cols) = 40 + src.rows * src.cols * 8 := by
    rw [blockSize_small] <;> simp only [pad] <;> omega
  have hv : matAlloc src.rows src.cols (some a) =
      .ok (⟨a, 40 + src.rows * src.cols * 8⟩, ⟨src.rows, src.cols, a + 40, src.rows⟩) := by
    unfold matAlloc block
    rw [w, e]
    simp only [if_neg (show ¬ 40 + src.rows * src.cols * 8 < 32 by omega)]
    rfl
  rw [hv] at h1
  cases h1
  refine ⟨_, _, dlacpy (cInt src.rows) (cInt src.cols) src.data (cInt src.ld) (a + 40 : Nat) (cInt src.rows) m,
    ?_, hv, ?_, ?_⟩
  · unfold matDup
    simp only [hv]
    rw [if_neg (by rw [cInt_small hr, cInt_small hc]; simp only [Int.toNat_natCast]; omega)]
  · intro i j hi hj
    rw [cInt_small hr, cInt_small hc, cInt_small hld]
    unfold dlacpy
    rw [Int.toNat_natCast, Int.toNat_natCast]
    have d1 : ∀ i j, (((⟨src.rows, src.cols, a + 40, src.rows⟩ : Mtx).el i j : Nat) : Int) =
        ((a + 40 : Nat) : Int) + 8 * ((i : Int) + (j : Int) * (src.rows : Int)) := by
      intro i j; simp [Mtx.el]
    have d2 : ∀ i j, ((src.el i j : Nat) : Int) =
        (src.data : Int) + 8 * ((i : Int) + (j : Int) * (src.ld : Int)) := by
      intro i j; simp [Mtx.el]
    rw [d1, d2]
    refine loop2_copy src.rows src.cols
      (fun i j => ((a + 40 : Nat) : Int) + 8 * ((i : Int) + (j : Int) * (src.rows : Int)))
      (fun i j => (src.data : Int) + 8 * ((i : Int) + (j : Int) * (src.ld : Int))) ?_ ?_ m i j hi hj
    · intro i j i' j' h1 h2 h3 h4 h
      by_contra hne
      have := h6 i j i' j' h1 h2 h3 h4 (fun h => hne (by simpa using h))
      rw [← d1, ← d1] at h
      omega
    · intro i j i' j' h1 h2 h3 h4 h
      have q := hs i j h1 h2
      have g := h5 i' j' h3 h4
      rw [← d1, ← d2] at h
      have g1 := g.lo
      have g2 := g.hi
      simp only [Apart] at q g1 g2
      omega
  · intro c hc'
    rw [cInt_small hr, cInt_small hc]
    unfold dlacpy
    rw [Int.toNat_natCast, Int.toNat_natCast]
    refine loop_frame (fun x => ∃ i j : Nat, i < src.rows ∧ j < src.cols ∧
      x = (((⟨src.rows, src.cols, a + 40, src.rows⟩ : Mtx).el i j : Nat) : Int)) _ _ ?_ m c ?_
    · intro j hj m x hx
      refine loop_frame (fun x => ∃ i : Nat, i < src.rows ∧
        x = (((⟨src.rows, src.cols, a + 40, src.rows⟩ : Mtx).el i j : Nat) : Int)) _ _ ?_ m x
        (fun ⟨i, hi, h⟩ => hx ⟨i, j, hi, hj, h⟩)
      intro i hi m x hx
      simp only [store]
      rw [if_neg]
      intro h
      exact hx ⟨i, hi, by simpa [Mtx.el] using h⟩
    · rintro ⟨i, j, hi, hj, h⟩
      have g := h5 i j hi hj
      have g1 := g.lo
      have g2 := g.hi
      simp only [Apart] at hc' g1 g2
      omega

/-- C148 is violated for huge sizes: the number of bytes wraps, and a matrix with 2^32 rows and columns is
made from a block of 40 bytes, in which none of its elements lies. -/
theorem C148_wrap_violates (a : Nat) : ∃ b M, matAlloc (2 ^ 32) (2 ^ 32) (some a) = .ok (b, M) ∧
    M.rows = 2 ^ 32 ∧ M.cols = 2 ^ 32 ∧ b.size = 40 ∧ ∀ i j, Apart b (M.el i j) := by
  refine ⟨⟨a, 40⟩, ⟨2 ^ 32, 2 ^ 32, a + 40, 2 ^ 32⟩, ?_, rfl, rfl, rfl, fun i j => .inr ?_⟩
  · have e : block 32 (word (2 ^ 32 * 2 ^ 32)) (some a) = .ok ⟨a, 40⟩ := by
      simp [block, blockSize, word, pad]
    unfold matAlloc
    rw [e]
    simp [pad]
  · simp only [Mtx.el]; omega

/-- C148 is violated when memory runs out: the descriptor is written through a null pointer. -/
theorem C148_null_violates (n rows cols : Nat) : vecAlloc n none = .ub ∧ matAlloc rows cols none = .ub :=
  ⟨rfl, rfl⟩

/-- C148 is violated for lengths from 2^31 on, up to 2^32: the length is negative as an `int`, the duplicate
is made, and nothing is copied into it. -/
theorem C148_long_violates (src : Vec) (a : Nat) (m : Mem) (h1 : 2 ^ 31 ≤ src.len) (h2 : src.len < 2 ^ 32) :
    ∃ b v, vecDup src (some a) m = .ok (b, v, m) ∧ v.len = src.len := by
  have hc : cInt src.len ≤ 0 := by
    have e : src.len % 2 ^ 32 = src.len := Nat.mod_eq_of_lt h2
    unfold cInt
    rw [e, if_neg (by omega)]
    omega
  obtain ⟨b, v, e1, e2, e3, e4, e5, -⟩ := C148_vector_partial src.len a (by omega)
  have g := e5 0 (by omega)
  refine ⟨b, v, ?_, e3⟩
  unfold vecDup
  simp only [e1]
  have z : (cInt src.len).toNat = 0 := Int.toNat_of_nonpos hc
  have gh := g.hi
  simp only [Vec.el] at gh
  rw [if_neg (by rw [z]; omega)]
  unfold dcopy
  rw [z]
  rfl

/-- C148 is not vacuous: a vector of three elements, every other double, and its duplicate. -/
example : ∃ b v m', vecDup ⟨3, 1000, 2⟩ (some 2000) (fun a => a) = .ok (b, v, m') ∧ m' 2032 = 1000 ∧
    m' 2040 = 1016 ∧ m' 2048 = 1032 := by
  obtain ⟨b, v, m', h1, h2, h3, -⟩ := C148_vector_dup_partial ⟨3, 1000, 2⟩ 2000 (fun a => a) (by norm_num)
    (by norm_num) (fun k hk => by simp only [Apart, Vec.el]; simp only at hk; omega)
  have hv : vecAlloc 3 (some 2000) = .ok (⟨2000, 56⟩, ⟨3, 2032, 1⟩) := by
    simp [vecAlloc, block, blockSize, word, pad]
  have h2' := h2.symm.trans hv
  cases h2'
  refine ⟨_, _, m', h1, ?_, ?_, ?_⟩
  · have := h3 0 (by norm_num); norm_num [Vec.el] at this; exact this
  · have := h3 1 (by norm_num); norm_num [Vec.el] at this; exact this
  · have := h3 2 (by norm_num); norm_num [Vec.el] at this; exact this

end Verif.MatAlloc
