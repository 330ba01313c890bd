import Verif.Model.Crs
import Mathlib.Algebra.BigOperators.Group.List.Basic
import Mathlib.Algebra.BigOperators.Group.List.Lemmas

/-!
# C173: sparse matrices have the rows they are made from
-/

namespace Verif.Sparse

variable {α : Type}

/-! ## Specification -/

/-- The columns of row `i`: those from the position where the row begins to where the next one does. -/
def colsOf (m : Crs α) (i : ℕ) : List ℕ := (m.colInd.take (m.rowPtr.getD (i + 1) 0)).drop (m.rowPtr.getD i 0)

/-- The values of row `i`. -/
def valsOf (m : Crs α) (i : ℕ) : List α := (m.data.take (m.rowPtr.getD (i + 1) 0)).drop (m.rowPtr.getD i 0)

/-- What can be a matrix: as many rows of columns as of values, as many columns as values in each, and one at
least. -/
def Input (css : List (List ℕ)) (vss : List (List α)) : Prop :=
  css.map List.length = vss.map List.length ∧ css.flatten ≠ []

/-! ## Lemmas -/

theorem take_set_succ {β : Type} (l : List β) (k : ℕ) (a : β) (h : k < l.length) :
    (l.set k a).take (k + 1) = l.take k ++ [a] := by
  rw [List.set_eq_take_append_cons_drop, if_pos h, List.take_append, List.length_take,
    Nat.min_eq_left (Nat.le_of_lt h), List.take_of_length_le (by simp; omega)]
  simp

theorem addElts_spec (ps : List (ℕ × α)) : ∀ m : Crs α, m.data.length = m.colInd.length →
    m.dataFill + ps.length ≤ m.data.length → (∀ p ∈ ps, p.1 < m.cols) →
    ∃ m', addElts m ps = some m' ∧ m'.rows = m.rows ∧ m'.cols = m.cols ∧ m'.rowPtr = m.rowPtr ∧
      m'.rowFill = m.rowFill ∧ m'.data.length = m.data.length ∧ m'.colInd.length = m.colInd.length ∧
      m'.dataFill = m.dataFill + ps.length ∧
      m'.data.take m'.dataFill = m.data.take m.dataFill ++ ps.map Prod.snd ∧
      m'.colInd.take m'.dataFill = m.colInd.take m.dataFill ++ ps.map Prod.fst := by
  induction ps with
  | nil => intro m _ _ _; exact ⟨m, rfl, rfl, rfl, rfl, rfl, rfl, rfl, rfl, by simp, by simp⟩
  | cons p ps ih =>
    intro m hl hf hc
    simp only [List.length_cons] at hf
    have h1 : addElt m p = some { m with
        data := m.data.set m.dataFill p.2
        colInd := m.colInd.set m.dataFill p.1
        dataFill := m.dataFill + 1 } := by
      rw [addElt, if_pos ⟨hc p (by simp), by omega, by omega⟩]
    obtain ⟨m', e, a1, a2, a3, a4, a5, a6, a7, a8, a9⟩ := ih { m with
        data := m.data.set m.dataFill p.2
        colInd := m.colInd.set m.dataFill p.1
        dataFill := m.dataFill + 1 } (by simpa using hl) (by simp; omega) (fun q hq => hc q (by simp [hq]))
    refine ⟨m', by rw [addElts, h1, Option.bind_some, e], a1, a2, a3, a4, by simpa using a5, by simpa using a6, ?_,
      ?_, ?_⟩
    · rw [a7]; simp; omega
    · rw [a8, take_set_succ _ _ _ (by omega)]; simp
    · rw [a9, take_set_succ _ _ _ (by omega)]; simp

theorem addRow_spec (m : Crs α) (cs : List ℕ) (vs : List α) (hlen : cs.length = vs.length)
    (hl : m.data.length = m.colInd.length) (hf : m.dataFill + cs.length ≤ m.data.length)
    (hc : ∀ c ∈ cs, c < m.cols) (hr : m.rowFill < m.rowPtr.length) :
    ∃ m', addRow m cs vs = some m' ∧ m'.rows = m.rows ∧ m'.cols = m.cols ∧
      m'.rowPtr = m.rowPtr.set m.rowFill (m.dataFill + cs.length) ∧ m'.rowFill = m.rowFill + 1 ∧
      m'.data.length = m.data.length ∧ m'.colInd.length = m.colInd.length ∧
      m'.dataFill = m.dataFill + cs.length ∧
      m'.data.take m'.dataFill = m.data.take m.dataFill ++ vs ∧
      m'.colInd.take m'.dataFill = m.colInd.take m.dataFill ++ cs := by
  have hz : (cs.zip vs).length = cs.length := by simp [hlen]
  obtain ⟨m', e, a1, a2, a3, a4, a5, a6, a7, a8, a9⟩ := addElts_spec (cs.zip vs) m hl (by rw [hz]; exact hf)
    (fun p hp => hc p.1 (List.of_mem_zip hp).1)
  rw [hz] at a7
  rw [List.map_snd_zip (by omega)] at a8
  rw [List.map_fst_zip (by omega)] at a9
  refine ⟨{ m' with rowPtr := m'.rowPtr.set m'.rowFill m'.dataFill, rowFill := m'.rowFill + 1 },
    by rw [addRow, if_pos hlen, e, Option.bind_some, incRow, if_pos (by rw [a3, a4]; exact hr)], a1, a2,
    by simp only [a3, a4, a7], by simp only [a4], a5, a6, a7, a8, a9⟩

theorem addRows_spec (rs : List (List ℕ × List α)) : ∀ m : Crs α, (∀ r ∈ rs, r.1.length = r.2.length) →
    m.data.length = m.colInd.length → m.dataFill + (rs.map fun r => r.1.length).sum ≤ m.data.length →
    (∀ r ∈ rs, ∀ c ∈ r.1, c < m.cols) → m.rowFill + rs.length ≤ m.rowPtr.length →
    ∃ m', addRows m rs = some m' ∧ m'.rows = m.rows ∧ m'.cols = m.cols ∧ m'.rowPtr.length = m.rowPtr.length ∧
      m'.rowFill = m.rowFill + rs.length ∧
      m'.data.length = m.data.length ∧ m'.colInd.length = m.colInd.length ∧
      m'.dataFill = m.dataFill + (rs.map fun r => r.1.length).sum ∧
      m'.data.take m'.dataFill = m.data.take m.dataFill ++ (rs.map Prod.snd).flatten ∧
      m'.colInd.take m'.dataFill = m.colInd.take m.dataFill ++ (rs.map Prod.fst).flatten ∧
      (∀ j, j < m.rowFill → m'.rowPtr[j]? = m.rowPtr[j]?) ∧
      (∀ j, j < rs.length → m'.rowPtr[m.rowFill + j]? =
        some (m.dataFill + ((rs.take (j + 1)).map fun r => r.1.length).sum)) := by
  induction rs with
  | nil =>
    intro m _ _ _ _ _
    exact ⟨m, rfl, rfl, rfl, rfl, rfl, rfl, rfl, by simp, by simp, by simp, fun _ _ => rfl, fun j hj => by simp at hj⟩
  | cons r rs ih =>
    intro m hr hl hf hc hp
    simp only [List.map_cons, List.sum_cons, List.length_cons] at hf hp
    obtain ⟨m1, e1, a1, a2, a3, a4, a5, a6, a7, a8, a9⟩ := addRow_spec m r.1 r.2 (hr r (by simp)) hl (by omega)
      (hc r (by simp)) (by omega)
    obtain ⟨m2, e2, b1, b2, b3, b4, b5, b6, b7, b8, b9, b10, b11⟩ := ih m1 (fun q hq => hr q (by simp [hq]))
      (by omega) (by omega) (fun q hq c hqc => by rw [a2]; exact hc q (by simp [hq]) c hqc)
      (by rw [a3, a4]; simp; omega)
    refine ⟨m2, by rw [addRows, e1, Option.bind_some, e2], b1.trans a1, b2.trans a2, by rw [b3, a3]; simp, ?_,
      b5.trans a5, b6.trans a6, ?_, ?_, ?_, fun j hj => ?_, fun j hj => ?_⟩
    · rw [b4, a4]; simp; omega
    · rw [b7, a7]; simp; omega
    · rw [b8, a8]; simp
    · rw [b9, a9]; simp
    · rw [b10 j (by omega), a3, List.getElem?_set_ne (by omega)]
    · cases j with
      | zero =>
        rw [Nat.add_zero, b10 _ (by omega), a3, List.getElem?_set_self (by omega)]
        simp
      | succ j =>
        simp only [List.length_cons] at hj
        have := b11 j (by omega)
        rw [a4, show m.rowFill + 1 + j = m.rowFill + (j + 1) by omega] at this
        rw [this, a7]
        simp only [List.take_succ_cons, List.map_cons, List.sum_cons, Option.some.injEq]
        omega

theorem foldl_len (css : List (List ℕ)) : ∀ e, css.foldl (fun e cs => e + cs.length) e = e + (css.map List.length).sum := by
  induction css with
  | nil => intro e; simp
  | cons c css ih => intro e; simp [ih]; omega

theorem foldl_max (l : List ℕ) : ∀ n, n ≤ l.foldl (fun n j => max n (j + 1)) n ∧
    (∀ j ∈ l, j < l.foldl (fun n j => max n (j + 1)) n) ∧
    (l.foldl (fun n j => max n (j + 1)) n = n ∨ ∃ j ∈ l, l.foldl (fun n j => max n (j + 1)) n = j + 1) := by
  induction l with
  | nil => intro n; simp
  | cons a l ih =>
    intro n
    obtain ⟨h1, h2, h3⟩ := ih (max n (a + 1))
    simp only [List.foldl_cons, List.mem_cons, forall_eq_or_imp, exists_eq_or_imp]
    refine ⟨by omega, ⟨by omega, h2⟩, ?_⟩
    rcases h3 with h3 | h3
    · rw [h3]; omega
    · exact .inr (.inr h3)

theorem foldl_max2 (css : List (List ℕ)) (n : ℕ) :
    css.foldl (fun n cs => cs.foldl (fun n j => max n (j + 1)) n) n =
      css.flatten.foldl (fun n j => max n (j + 1)) n := by
  rw [List.foldl_flatten]

/-! ## Theorems -/

/-- A matrix is made exactly of what can be one; it has as many rows as there are lists, as many columns as the
largest column asks for, exactly the elements given, and its rows are the lists. -/
theorem C173_rows (zero : α) (css : List (List ℕ)) (vss : List (List α)) :
    (¬ Input css vss → crs zero css vss = none) ∧
    (Input css vss → ∃ m, crs zero css vss = some m ∧ m.rows = css.length ∧
      (∀ c ∈ css.flatten, c < m.cols) ∧ (∃ c ∈ css.flatten, m.cols = c + 1) ∧
      m.rowPtr.length = m.rows + 1 ∧ m.rowPtr[0]? = some 0 ∧ m.rowPtr[m.rows]? = some m.data.length ∧
      m.colInd.length = m.data.length ∧ m.data.length = css.flatten.length ∧
      (∀ (i : ℕ) (h : i < css.length), colsOf m i = css[i]) ∧
      (∀ (i : ℕ) (h : i < vss.length), valsOf m i = vss[i])) := by
  have hall : css.length = vss.length →
      (((css.zip vss).all fun r => r.1.length = r.2.length) = true ↔ css.map List.length = vss.map List.length) := by
    intro h
    rw [List.all_eq_true]
    constructor
    · intro ha
      refine List.ext_getElem (by simpa using h) fun i h1 h2 => ?_
      simp only [List.length_map] at h1 h2
      have := ha (css[i], vss[i]) (List.mem_iff_getElem.2 ⟨i, by simp; omega, by simp⟩)
      simpa using this
    · intro ha r hr
      obtain ⟨i, hi, rfl⟩ := List.mem_iff_getElem.1 hr
      simp only [List.length_zip] at hi
      have h1 := congrArg (fun l => l[i]?) ha
      simp only [List.getElem?_map, List.getElem?_eq_getElem (show i < css.length by omega),
        List.getElem?_eq_getElem (show i < vss.length by omega), Option.map_some, Option.some.injEq] at h1
      simpa using h1
  obtain ⟨-, m2, m3⟩ := foldl_max css.flatten 0
  constructor
  · intro hn
    rw [crs]
    split_ifs with h1 h2
    · have hfl : css.flatten = [] := by
        by_contra hne
        exact hn ⟨(hall h1).1 h2, hne⟩
      simp [foldl_max2, hfl, make]
    · rfl
    · rfl
  · rintro ⟨hin, hne⟩
    have h1 : css.length = vss.length := by simpa using congrArg List.length hin
    have hn : 1 ≤ css.flatten.foldl (fun n j => max n (j + 1)) 0 := by
      obtain ⟨c, hc⟩ := List.exists_mem_of_ne_nil _ hne
      have := m2 c hc
      omega
    have hrows : 1 ≤ css.length := by
      cases css with
      | nil => simp at hne
      | cons a l => simp
    have hfst : (css.zip vss).map Prod.fst = css := List.map_fst_zip (by omega)
    have hsnd : (css.zip vss).map Prod.snd = vss := List.map_snd_zip (by omega)
    have hsum : ∀ k, ((css.zip vss).take k).map (fun r => r.1.length) = (css.map List.length).take k := by
      intro k
      rw [show (fun r : List ℕ × List α => r.1.length) = List.length ∘ Prod.fst from rfl, ← List.map_map,
        List.map_take, hfst, List.map_take]
    have hsum' : (css.zip vss).map (fun r => r.1.length) = css.map List.length := by
      rw [show (fun r : List ℕ × List α => r.1.length) = List.length ∘ Prod.fst from rfl, ← List.map_map, hfst]
    have hfl : css.flatten.length = (css.map List.length).sum := List.length_flatten
    have hzl : (css.zip vss).length = css.length := by simp [h1]
    have hmk : make zero css.length (css.flatten.foldl (fun n j => max n (j + 1)) 0) (css.map List.length).sum =
        some ⟨css.length, css.flatten.foldl (fun n j => max n (j + 1)) 0,
          List.replicate (css.map List.length).sum 0, (List.replicate (css.length + 1) 0).set 0 0,
          List.replicate (css.map List.length).sum zero, 0, 1⟩ := by
      rw [make, if_pos ⟨hrows, hn⟩, incRow, if_pos (by simp)]
    obtain ⟨m, e, a1, a2, a3, a4, a5, a6, a7, a8, a9, a10, a11⟩ := addRows_spec (css.zip vss)
      ⟨css.length, css.flatten.foldl (fun n j => max n (j + 1)) 0,
          List.replicate (css.map List.length).sum 0, (List.replicate (css.length + 1) 0).set 0 0,
          List.replicate (css.map List.length).sum zero, 0, 1⟩
      (fun r hr => by simpa using List.all_eq_true.1 ((hall h1).2 hin) r hr) (by simp) (by simp [hsum'])
      (fun r hr c hc => m2 c (List.mem_flatten.2 ⟨r.1, (List.of_mem_zip (a := r.1) (b := r.2) hr).1, hc⟩))
      (by simp [hzl]; omega)
    simp only [List.length_replicate, List.length_set, hsum', Nat.zero_add, List.take_zero, List.nil_append, hfst,
      hsnd, hzl, hsum] at a1 a2 a3 a4 a5 a6 a7 a8 a9 a10 a11
    have hd : m.data = vss.flatten := by rw [← a8, a7, ← a5, List.take_length]
    have hc : m.colInd = css.flatten := by rw [← a9, a7, ← a6, List.take_length]
    have hp : ∀ j, j ≤ css.length → m.rowPtr[j]? = some ((css.map List.length).take j).sum := by
      intro j hj
      cases j with
      | zero => rw [a10 0 (by omega)]; simp
      | succ j => rw [Nat.add_comm j 1, a11 j (by omega), Nat.add_comm 1 j]
    refine ⟨m, ?_, a1, ?_, ?_, by rw [a3, a1], by rw [hp 0 (by omega)]; simp, ?_, by rw [a6, a5], by rw [a5, hfl], ?_, ?_⟩
    · rw [crs, if_pos h1, if_pos ((hall h1).2 hin), foldl_max2, foldl_len, Nat.zero_add]
      simp only [hmk, Option.bind_some, e]
    · rw [a2]; exact m2
    · rcases m3 with m3 | m3
      · omega
      · rw [a2]; exact m3
    · rw [a1, hp _ le_rfl, a5, List.take_of_length_le (by simp)]
    · intro i h
      rw [colsOf, List.getD_eq_getElem?_getD, List.getD_eq_getElem?_getD, hp i h.le, hp (i + 1) h, hc]
      exact List.drop_take_succ_flatten_eq_getElem css i h
    · intro i h
      rw [valsOf, List.getD_eq_getElem?_getD, List.getD_eq_getElem?_getD, hp i (by omega), hp (i + 1) (by omega), hd, hin]
      exact List.drop_take_succ_flatten_eq_getElem vss i h

/-! ## Cases -/

/-- The first rows of the example in lisp/sparse.lisp:140-152 can be a matrix. -/
example : Input [[0, 4], [0, 1, 5], [1, 2, 3]] [[10, -2], [3, 9, 3], [7, 8, 7]] := by
  constructor <;> simp

/-- Rows can be empty, if there is one that is not. -/
example : (crs 0 [[], [2, 0], []] [[], [7, 8], []]).map (fun m => (m.rowPtr, m.colInd, m.data, m.cols)) =
    some ([0, 0, 2, 2], [2, 0], [7, 8], 3) := by decide

end Verif.Sparse
