import Verif.Proof.MatIter
import Mathlib.Algebra.Ring.Int.Defs
import Mathlib.Data.List.Nodup

/-!
# C143: iterating over vectors and matrices, and making them from lists

Full statement: a range-based `for` over a vector refers to each of its elements once, in order; over
the rows or the columns of a matrix it gives each row or column once, in order, as the view that
`row_vec` or `col_vec` gives; `DVec::init`, `DMat::col_mat` and `DMat::row_mat` give the vector with
the elements of the list and the matrix with the columns or rows of the list, and write nothing else.

The code violates it for vectors of increment zero and for the columns of a matrix of leading
dimension zero (nothing is visited), for no list at all (the first list is read though there is
none) and for lists of different lengths (stores outside the matrix; elements that nobody has
written).
-/

namespace Verif.MatIter

open Verif.Mat

variable {K : Type}

/-! ## Iteration -/

/-- A `for` over a vector refers to each element once, in order. -/
theorem C143_iterate_vec_partial (v : DVec) (h : 0 < v.inc ∨ v.len = 0) (fuel : Nat)
    (hf : v.len ≤ fuel) : vecWalk v fuel = some ((List.range v.len).map v.ref) := by
  rcases h with h | h
  · rw [vecWalk, Nat.mul_comm, walk_go h v.len fuel v.data hf]
    rfl
  · rw [vecWalk, h]
    simpa using walk_stop v.inc fuel v.data

/-- The elements of a vector that a `for` refers to are different addresses. -/
theorem C143_iterate_vec_once_partial (v : DVec) (h : 0 < v.inc) (fuel : Nat) (hf : v.len ≤ fuel) :
    ∃ l, vecWalk v fuel = some l ∧ l.length = v.len ∧ l.Nodup := by
  refine ⟨_, C143_iterate_vec_partial v (Or.inl h) fuel hf, by simp, ?_⟩
  refine List.Nodup.map (f := v.ref) (fun i j e => ?_) List.nodup_range
  simp only [DVec.ref, Nat.add_left_cancel_iff] at e
  exact Nat.eq_of_mul_eq_mul_right h e

example : vecWalk ⟨3, 10, 2⟩ 7 = some [10, 12, 14] := by decide

/-- VIOLATION. A vector of three elements and increment zero, such as the row of a matrix of leading
dimension zero: nothing is visited. -/
theorem C143_inc_zero_violates (len data fuel : Nat) : vecWalk ⟨len, data, 0⟩ fuel = some [] := by
  simpa [vecWalk] using walk_stop 0 fuel data

/-- A `for` over the rows gives each row once, in order, as the view of `row_vec`. -/
theorem C143_iterate_rows (A : DMat) (fuel : Nat) (hf : A.rows ≤ fuel) :
    ∃ l, rowWalk A fuel = some l ∧ ∀ (i : Nat), l[i]? = rowVec A i := by
  have e := walk_go Nat.one_pos A.rows fuel A.data hf
  rw [Nat.mul_one] at e
  refine ⟨_, by rw [rowWalk, e, Option.map_some], fun i => ?_⟩
  rw [rowVec, List.getElem?_map, List.getElem?_map]
  split_ifs with h
  · rw [List.getElem?_eq_none (by simpa using h)]; rfl
  · rw [List.getElem?_range (by omega)]; simp

/-- A `for` over the columns gives each column once, in order, as the view of `col_vec`. -/
theorem C143_iterate_cols_partial (A : DMat) (h : 0 < A.ld ∨ A.cols = 0) (fuel : Nat)
    (hf : A.cols ≤ fuel) : ∃ l, colWalk A fuel = some l ∧ ∀ (i : Nat), l[i]? = colVec A i := by
  rcases h with h | h
  · have e := walk_go h A.cols fuel A.data hf
    refine ⟨_, by rw [colWalk, e, Option.map_some], fun i => ?_⟩
    rw [colVec, List.getElem?_map, List.getElem?_map]
    split_ifs with h
    · rw [List.getElem?_eq_none (by simpa using h)]; rfl
    · rw [List.getElem?_range (by omega)]; simp
  · refine ⟨[], by rw [colWalk, h, Nat.zero_mul, Nat.add_zero, walk_stop]; rfl, fun i => ?_⟩
    rw [colVec, if_pos (by omega)]; rfl

example : rowWalk ⟨2, 3, 100, 4⟩ 9 = some [⟨3, 100, 4⟩, ⟨3, 101, 4⟩] ∧
    colWalk ⟨2, 3, 100, 4⟩ 9 = some [⟨2, 100, 1⟩, ⟨2, 104, 1⟩, ⟨2, 108, 1⟩] := by decide

/-- VIOLATION. A matrix that `alloc` has made with no rows and some columns has that many (empty)
columns; the loop visits none of them. -/
theorem C143_no_rows_violates (base cols fuel : Nat) (hc : 0 < cols) :
    colWalk (allocMat base 0 cols) fuel = some [] ∧ colVec (allocMat base 0 cols) 0 ≠ none := by
  refine ⟨?_, ?_⟩
  · simp only [colWalk, allocMat, Nat.mul_zero, Nat.add_zero, walk_stop]; rfl
  · rw [colVec, if_neg (by simp only [allocMat]; omega)]; exact Option.some_ne_none _

/-! ## Construction -/

/-- `init` makes the vector with the elements of the list, and writes only these. -/
theorem C143_init (base : Nat) (x : List K) (m : Mem K) :
    ∃ v m', init base x m = some (v, m') ∧ v.len = x.length ∧
      (∀ t (h : t < x.length), m' (v.ref t) = x[t]) ∧
      ∀ b, (∀ t, t < v.len → b ≠ v.ref t) → m' b = m b := by
  obtain ⟨m', e, hv, hf⟩ := put_spec (lim := base + x.length) Nat.one_pos x base m
    (fun t ht => by omega)
  exact ⟨allocVec base x.length, m', by
    simp only [init, assign]
    rw [show (allocVec base x.length).inc = 1 from rfl,
      show (allocVec base x.length).data = base from rfl, e, Option.map_some], rfl, hv, hf⟩

/-- `assign` of as many elements as the vector has writes each of them, and nothing else. -/
theorem C143_assign_partial (lim : Nat) (v : DVec) (x : List K) (m : Mem K) (hi : 0 < v.inc)
    (hx : x.length = v.len) (hl : ∀ t, t < v.len → v.ref t < lim) :
    ∃ m', assign lim v x m = some m' ∧ (∀ t (h : t < x.length), m' (v.ref t) = x[t]) ∧
      ∀ b, (∀ t, t < v.len → b ≠ v.ref t) → m' b = m b := by
  obtain ⟨m', e, hv, hf⟩ := put_spec (lim := lim) hi x v.data m (fun t ht => hl t (hx ▸ ht))
  exact ⟨m', e, hv, fun b hb => hf b (fun t ht => hb t (hx ▸ ht))⟩

/-- `assign` of more elements than the array behind the vector holds is out of bounds. -/
theorem C143_assign_long_violates (v : DVec) (x : List K) (m : Mem K)
    (hx : v.len < x.length) : assign (v.ref v.len) v x m = none :=
  put_none x v.data m v.len hx (le_refl _)

/-- Column-major addresses of different elements are different. -/
private theorem addr_inj {r k t k' t' : Nat} (ht : t < r) (ht' : t' < r)
    (e : k * r + t = k' * r + t') : k = k' ∧ t = t' := by
  have h1 : (t + r * k) / r = k := by
    rw [Nat.add_mul_div_left _ _ (by omega), Nat.div_eq_of_lt ht, Nat.zero_add]
  have h2 : (t' + r * k') / r = k' := by
    rw [Nat.add_mul_div_left _ _ (by omega), Nat.div_eq_of_lt ht', Nat.zero_add]
  have hk : k = k' := by
    rw [← h1, ← h2]
    congr 1
    rw [Nat.mul_comm r k, Nat.mul_comm r k']
    omega
  subst hk
  exact ⟨rfl, by omega⟩

private theorem addr_lt {r n k t : Nat} (hk : k < n) (ht : t < r) : k * r + t < r * n := by
  have : (k + 1) * r ≤ n * r := Nat.mul_le_mul_right r hk
  have e : (k + 1) * r = k * r + r := by ring
  have e2 : r * n = n * r := Nat.mul_comm _ _
  omega

/-- `col_mat` of at least one list, all of one length, makes the matrix whose columns are the lists,
and writes only its elements. -/
theorem C143_col_mat_partial (base r : Nat) (x : List (List K)) (m : Mem K) (hne : x ≠ [])
    (hr : ∀ l ∈ x, l.length = r) :
    ∃ A m', colMat base x m = some (A, m') ∧ A.rows = r ∧ A.cols = x.length ∧
      (∀ i j (hj : j < x.length) (hi : i < x[j].length), m' (A.ref i j) = x[j][i]) ∧
      ∀ b, (∀ i j, i < A.rows → j < A.cols → b ≠ A.ref i j) → m' b = m b := by
  obtain ⟨l, ls, rfl⟩ := List.exists_cons_of_ne_nil hne
  have hl : l.length = r := hr l (by simp)
  set x := l :: ls with hx
  rcases Nat.eq_zero_or_pos r with h0 | h0
  · refine ⟨allocMat base r x.length, m, ?_, rfl, rfl, ?_, fun _ _ => rfl⟩
    · simp only [colMat, hx, allocMat, hl, h0, fill]
      simp
    · intro i j hj hi
      have := hr x[j] (List.getElem_mem hj)
      omega
  · have ad : ∀ k t : Nat, base + k * r + t * 1 = base + (k * r + t) := by intro k t; ring
    obtain ⟨m', e, hv, hf⟩ := fill_spec (lim := base + r * x.length) Nat.one_pos h0 x base m hr
      (fun k t hk ht => by rw [ad]; exact Nat.add_lt_add_left (addr_lt hk ht) base)
      (fun k t k' t' _ ht _ ht' e => by
        rw [ad, ad] at e
        exact (addr_inj ht ht' (Nat.add_left_cancel e)).1)
    have rf : ∀ i j, (allocMat base r x.length).ref i j = base + j * r + i * 1 := by
      intro i j; simp only [DMat.ref, allocMat]; ring
    refine ⟨allocMat base r x.length, m', ?_, rfl, rfl, ?_, ?_⟩
    · simp only [colMat, hx]
      rw [hl]
      simp only [allocMat]
      rw [← hx, e, Option.map_some]
    · intro i j hj hi
      rw [rf]; exact hv j i hj hi
    · intro b hb
      exact hf b (fun k t hk ht => by rw [← rf]; exact hb t k ht hk)

/-- `row_mat` of at least one list, all of one length, makes the matrix whose rows are the lists, and
writes only its elements. -/
theorem C143_row_mat_partial (base c : Nat) (x : List (List K)) (m : Mem K) (hne : x ≠ [])
    (hr : ∀ l ∈ x, l.length = c) :
    ∃ A m', rowMat base x m = some (A, m') ∧ A.rows = x.length ∧ A.cols = c ∧
      (∀ i j (hi : i < x.length) (hj : j < x[i].length), m' (A.ref i j) = x[i][j]) ∧
      ∀ b, (∀ i j, i < A.rows → j < A.cols → b ≠ A.ref i j) → m' b = m b := by
  obtain ⟨l, ls, rfl⟩ := List.exists_cons_of_ne_nil hne
  have hl : l.length = c := hr l (by simp)
  set x := l :: ls with hx
  have hn : 0 < x.length := by simp [hx]
  have ad : ∀ k t : Nat, base + k * 1 + t * x.length = base + (t * x.length + k) := by
    intro k t; ring
  obtain ⟨m', e, hv, hf⟩ := fill_spec (lim := base + x.length * c) hn Nat.one_pos x base m hr
    (fun k t hk ht => by rw [ad]; exact Nat.add_lt_add_left (addr_lt ht hk) base)
    (fun k t k' t' hk _ hk' _ e => by
      rw [ad, ad] at e
      exact (addr_inj hk hk' (Nat.add_left_cancel e)).2)
  have rf : ∀ i j, (allocMat base x.length c).ref i j = base + i * 1 + j * x.length := by
    intro i j; simp only [DMat.ref, allocMat]; ring
  refine ⟨allocMat base x.length c, m', ?_, rfl, rfl, ?_, ?_⟩
  · rw [Nat.mul_one] at e
    simp only [rowMat, hx]
    rw [hl]
    simp only [allocMat]
    rw [← hx, e, Option.map_some]
  · intro i j hi hj
    rw [rf]; exact hv i j hi hj
  · intro b hb
    exact hf b (fun k t hk ht => by rw [← rf]; exact hb k t hk ht)

/-- Whatever the lists, what is written lies in the memory of the matrix, or the call is out of
bounds. -/
theorem C143_writes_inside (base : Nat) (x : List (List K)) (m : Mem K) (A : DMat) (m' : Mem K)
    (h : colMat base x m = some (A, m') ∨ rowMat base x m = some (A, m')) :
    A.data = base ∧ A.ld = A.rows ∧
      ∀ b, b < base ∨ base + A.rows * A.cols ≤ b → m' b = m b := by
  cases x with
  | nil => rcases h with h | h <;> exact absurd h (by simp [colMat, rowMat])
  | cons l ls =>
      rcases h with h | h
      all_goals
        first | rw [colMat] at h | rw [rowMat] at h
        obtain ⟨w, hw, e⟩ := Option.map_eq_some_iff.mp h
        obtain ⟨rfl, rfl⟩ := Prod.mk.inj e
        exact ⟨rfl, rfl, fun b hb => fill_frame _ _ _ _ hw b hb⟩

private def zero : Mem Int := fun _ => 0

/-- `{{1, 2}, {3, 4}, {5, 6}}` by columns and by rows. -/
example : (colMat 10 [[1, 2], [3, 4], [5, 6]] zero).map (fun p => (p.1, (List.range 8).map fun i =>
      p.2 (9 + i))) = some (⟨2, 3, 10, 2⟩, [0, 1, 2, 3, 4, 5, 6, 0]) ∧
    (rowMat 10 [[1, 2], [3, 4], [5, 6]] zero).map (fun p => (p.1, (List.range 8).map fun i =>
      p.2 (9 + i))) = some (⟨3, 2, 10, 3⟩, [0, 1, 3, 5, 2, 4, 6, 0]) := by decide

/-- VIOLATION. Without any list, the size of the first one is read. -/
theorem C143_no_list_violates (base : Nat) (m : Mem K) :
    colMat base [] m = none ∧ rowMat base [] m = none := ⟨rfl, rfl⟩

private theorem fill_last {lim step inc stop n : Nat} (last : List K) (hs : 0 < step)
    (hw : ∀ m : Mem K, put lim inc (stop - step) last m = none) (L : List (List K)) :
    ∀ (cur : Nat) (m : Mem K), L.length = n → stop = cur + (n + 1) * step →
    fill lim step inc stop cur (L ++ [last]) m = none := by
  induction L generalizing n with
  | nil =>
      intro cur m hn he
      subst hn
      have e1 : (List.length ([] : List (List K)) + 1) * step = step := by simp
      rw [e1] at he
      rw [List.nil_append, fill, if_neg (by omega), show cur = stop - step by omega, hw]; rfl
  | cons l ls ih =>
      intro cur m hn he
      subst hn
      have e1 : (List.length (l :: ls) + 1) * step = step + (ls.length + 1) * step := by
        simp only [List.length_cons]; ring
      rw [e1] at he
      rw [List.cons_append, fill, if_neg (by omega)]
      cases hp : put lim inc cur l m with
      | none => rfl
      | some m1 => exact ih (cur + step) m1 rfl (by omega)

/-- VIOLATION. A last column longer than the first (not empty) one is stored outside the matrix,
whatever lies between. -/
theorem C143_long_column_violates (base : Nat) (l last : List K) (mid : List (List K)) (m : Mem K)
    (h0 : l ≠ []) (h : l.length < last.length) : colMat base (l :: (mid ++ [last])) m = none := by
  have hp : 0 < l.length := List.length_pos_iff.mpr h0
  have e1 : ((l :: mid).length + 1) * l.length = l.length * (mid.length + 2) := by
    simp only [List.length_cons]; ring
  have e2 : l.length * (mid.length + 2) = l.length * (mid.length + 1) + l.length := by ring
  simp only [colMat, allocMat]
  rw [show l :: (mid ++ [last]) = (l :: mid) ++ [last] from rfl,
    fill_last (n := (l :: mid).length) last hp (fun m => ?_) (l :: mid) base m rfl ?_]
  · rfl
  · simp only [List.length_append, List.length_cons, List.length_nil]
  · refine put_none last _ m l.length h ?_
    simp only [List.length_append, List.length_cons, List.length_nil]
    have e3 : (mid.length + 1 + (0 + 1)) * l.length = l.length * (mid.length + 2) := by ring
    have e4 : l.length * (mid.length + 1 + (0 + 1)) = l.length * (mid.length + 2) := by ring
    omega

/-- VIOLATION. `{{1, 2}, {3}}`: the lower right element is whatever was in the memory. -/
theorem C143_short_column_violates (g : Int) :
    ∃ A m', colMat 0 [[1, 2], [3]] (fun _ => g) = some (A, m') ∧ A = ⟨2, 2, 0, 2⟩ ∧
      m' (A.ref 1 1) = g := by
  refine ⟨⟨2, 2, 0, 2⟩, _, rfl, rfl, ?_⟩
  simp [store, DMat.ref, allocMat]

/-- VIOLATION. `{{}, {1}}`: the element of the second column is dropped. -/
theorem C143_empty_first_violates (m : Mem Int) :
    colMat 0 [[], [1]] m = some (⟨0, 2, 0, 0⟩, m) := rfl

end Verif.MatIter
