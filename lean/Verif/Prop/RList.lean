import Verif.Model.RList

/-! Property C09: region lists. -/

namespace Verif.RList

/-- Specification: the abstract effect of one call on a list, with its result. -/
def spec {α} (xs : List α) : Op α → List α × Option α
  | .push d => (d :: xs, none)
  | .enqueue d => (xs ++ [d], none)
  | .pop => (xs.tail, xs.head?)

def specRun {α} (xs : List α) : List (Op α) → List α × List (Option α)
  | [] => (xs, [])
  | op :: ops =>
    let (ys, r) := spec xs op
    let (zs, rs) := specRun ys ops
    (zs, r :: rs)

/-- `ids` is the chain of cells from `h`, holding `xs`. -/
def Chain {α} (cells : Nat → Option (Cell α)) : Option Nat → List Nat → List α → Prop
  | h, [], xs => h = none ∧ xs = []
  | h, i :: ids, xs => h = some i ∧ ∃ x xs' n, xs = x :: xs' ∧ cells i = some ⟨x, n⟩ ∧ Chain cells n ids xs'

theorem Chain.congr {α} {m m' : Nat → Option (Cell α)} {h ids xs} (hc : Chain m h ids xs)
    (he : ∀ i ∈ ids, m' i = m i) : Chain m' h ids xs := by
  induction ids generalizing h xs with
  | nil => exact hc
  | cons i ids ih =>
    obtain ⟨h1, x, xs', n, h2, h3, h4⟩ := hc
    exact ⟨h1, x, xs', n, h2, by rw [he i (by simp)]; exact h3,
      ih h4 (fun j hj => he j (List.mem_cons_of_mem _ hj))⟩

structure Inv {α} (l : RL α) (ids : List Nat) (xs : List α) : Prop where
  chain : Chain l.cells l.head ids xs
  nodup : ids.Nodup
  lt : ∀ i ∈ ids, i < l.fresh
  tail : l.tailp = match ids.getLast? with
    | none => Loc.head
    | some i => Loc.next i

theorem push_inv {α} {l : RL α} {ids xs} (h : Inv l ids xs) (d : α) :
    Inv (push l d) (l.fresh :: ids) (d :: xs) := by
  obtain ⟨hc, hn, hlt, ht⟩ := h
  have hf : l.fresh ∉ ids := fun hm => by have := hlt _ hm; omega
  have hch : Chain (setCell l.cells l.fresh ⟨d, l.head⟩) (some l.fresh) (l.fresh :: ids) (d :: xs) := by
    refine ⟨rfl, d, xs, l.head, rfl, by simp [setCell], hc.congr ?_⟩
    intro i hi
    have : i ≠ l.fresh := fun he => hf (he ▸ hi)
    simp [setCell, this]
  have hlt' : ∀ i ∈ l.fresh :: ids, i < l.fresh + 1 := by
    intro i hi
    rcases List.mem_cons.1 hi with rfl | hi
    · omega
    · have := hlt i hi; omega
  have hnd : (l.fresh :: ids).Nodup := List.nodup_cons.2 ⟨hf, hn⟩
  cases ids with
  | nil =>
    have ht' : l.tailp = .head := ht
    simp only [push, cons, ht', if_true]
    exact ⟨hch, hnd, hlt', rfl⟩
  | cons i ids =>
    obtain ⟨j, hj⟩ : ∃ j, (i :: ids).getLast? = some j := ⟨_, List.getLast?_cons⟩
    have ht' : l.tailp = .next j := by rw [ht, hj]
    simp only [push, cons, ht', reduceCtorEq, if_false]
    exact ⟨hch, hnd, hlt', by rw [List.getLast?_cons_cons, hj]⟩

theorem chain_snoc {α} {m : Nat → Option (Cell α)} {h : Option Nat} {ids : List Nat} {xs : List α} {j n : Nat}
    (d : α) (hc : Chain m h ids xs) (hn : ids.Nodup) (hf : n ∉ ids) (hj : ids.getLast? = some j) :
    ∃ c, m j = some c ∧
      Chain (setCell (setCell m n ⟨d, none⟩) j { c with next := some n }) h (ids ++ [n]) (xs ++ [d]) := by
  induction ids generalizing h xs with
  | nil => simp at hj
  | cons i ids ih =>
    obtain ⟨h1, x, xs', nx, h2, h3, h4⟩ := hc
    have hin : i ∉ ids := (List.nodup_cons.1 hn).1
    cases ids with
    | nil =>
      obtain ⟨rfl, rfl⟩ := h4
      simp at hj
      subst hj h2
      have hne : n ≠ i := fun he => hf (by simp [he])
      refine ⟨_, h3, h1, x, [d], some n, rfl, by simp [setCell], rfl, d, [], none, rfl, ?_, rfl, rfl⟩
      simp [setCell, hne]
    | cons i' ids =>
      rw [List.getLast?_cons_cons] at hj
      obtain ⟨c, hc1, hc2⟩ := ih h4 (List.nodup_cons.1 hn).2 (fun hm => hf (List.mem_cons_of_mem _ hm)) hj
      have hjm : j ∈ i' :: ids := List.mem_of_getLast? hj
      have hij : i ≠ j := fun he => hin (he ▸ hjm)
      have hin' : i ≠ n := fun he => hf (by simp [he])
      subst h2
      refine ⟨c, hc1, h1, x, xs' ++ [d], nx, rfl, ?_, hc2⟩
      simp [setCell, hij, hin', h3]

theorem enqueue_inv {α} {l : RL α} {ids xs} (h : Inv l ids xs) (d : α) :
    ∃ l', enqueue l d = some l' ∧ Inv l' (ids ++ [l.fresh]) (xs ++ [d]) := by
  obtain ⟨hc, hn, hlt, ht⟩ := h
  have hf : l.fresh ∉ ids := fun hm => by have := hlt _ hm; omega
  have hlt' : ∀ i ∈ ids ++ [l.fresh], i < l.fresh + 1 := by
    intro i hi
    rcases List.mem_append.1 hi with hi | hi
    · have := hlt i hi; omega
    · simp at hi; omega
  have hnd : (ids ++ [l.fresh]).Nodup := by
    rw [List.nodup_append]
    refine ⟨hn, by simp, ?_⟩
    intro a ha b hb he
    simp at hb; subst hb; subst he; exact hf ha
  cases hj : ids.getLast? with
  | none =>
    have hids : ids = [] := List.getLast?_eq_none_iff.1 hj
    subst hids
    obtain ⟨hh, rfl⟩ := hc
    have ht' : l.tailp = .head := ht
    refine ⟨⟨some l.fresh, .next l.fresh, setCell l.cells l.fresh ⟨d, none⟩, l.fresh + 1⟩, ?_, ?_, hnd, hlt', rfl⟩
    · simp [enqueue, cons, storeTail, ht']
    · exact ⟨rfl, d, [], none, rfl, by simp [setCell], rfl, rfl⟩
  | some j =>
    have ht' : l.tailp = .next j := by rw [ht, hj]
    obtain ⟨c, hc1, hc2⟩ := chain_snoc d hc hn hf hj
    have hjf : j ≠ l.fresh := fun he => hf (he ▸ List.mem_of_getLast? hj)
    refine ⟨⟨l.head, .next l.fresh, setCell (setCell l.cells l.fresh ⟨d, none⟩) j { c with next := some l.fresh },
      l.fresh + 1⟩, ?_, hc2, hnd, hlt', by simp⟩
    have : setCell l.cells l.fresh ⟨d, none⟩ j = some c := by simp [setCell, hjf, hc1]
    simp [enqueue, cons, storeTail, ht', this]

theorem pop_inv {α} {l : RL α} {ids xs} (h : Inv l ids xs) :
    ∃ l', pop l = some (l', xs.head?) ∧ Inv l' ids.tail xs.tail := by
  have h' := h
  obtain ⟨hc, hn, hlt, ht⟩ := h
  cases ids with
  | nil =>
    obtain ⟨hh, rfl⟩ := hc
    exact ⟨l, by simp [pop, hh], h'⟩
  | cons i ids =>
    obtain ⟨h1, x, xs', n, rfl, h3, h4⟩ := hc
    have hlt' : ∀ k ∈ ids, k < l.fresh := fun k hk => hlt k (List.mem_cons_of_mem _ hk)
    cases ids with
    | nil =>
      obtain ⟨rfl, rfl⟩ := h4
      exact ⟨{ l with head := none, tailp := .head }, by simp [pop, h1, h3], ⟨rfl, rfl⟩, by simp, by simp, rfl⟩
    | cons j ids =>
      have hnj : n = some j := h4.1
      refine ⟨{ l with head := n }, by simp [pop, h1, h3, hnj], h4, (List.nodup_cons.1 hn).2, hlt', ?_⟩
      rw [List.getLast?_cons_cons] at ht
      exact ht

theorem step_inv {α} {l : RL α} {ids xs} (h : Inv l ids xs) (op : Op α) :
    ∃ l' ids', step l op = some (l', (spec xs op).2) ∧ Inv l' ids' (spec xs op).1 := by
  cases op with
  | push d => exact ⟨_, _, rfl, push_inv h d⟩
  | enqueue d =>
    obtain ⟨l', h1, h2⟩ := enqueue_inv h d
    exact ⟨l', _, by simp [step, h1, spec], h2⟩
  | pop =>
    obtain ⟨l', h1, h2⟩ := pop_inv h
    exact ⟨l', _, by simp [step, h1, spec], h2⟩

theorem run_inv {α} {l : RL α} {ids xs} (h : Inv l ids xs) (ops : List (Op α)) :
    ∃ l' ids', run l ops = some (l', (specRun xs ops).2) ∧ Inv l' ids' (specRun xs ops).1 := by
  induction ops generalizing l ids xs with
  | nil => exact ⟨l, ids, rfl, h⟩
  | cons op ops ih =>
    obtain ⟨l1, ids1, h1, h2⟩ := step_inv h op
    obtain ⟨l2, ids2, h3, h4⟩ := ih h2
    exact ⟨l2, ids2, by simp [run, h1, h3, specRun], h4⟩

theorem map_chain {α} {cells : Nat → Option (Cell α)} {h ids xs} (hc : Chain cells h ids xs) (fuel : Nat)
    (hf : xs.length ≤ fuel) : mapFrom cells fuel h = some xs := by
  induction ids generalizing h xs fuel with
  | nil => obtain ⟨rfl, rfl⟩ := hc; cases fuel <;> rfl
  | cons i ids ih =>
    obtain ⟨rfl, x, xs', n, rfl, h3, h4⟩ := hc
    cases fuel with
    | zero => simp at hf
    | succ fuel => simp only [List.length_cons] at hf; simp [mapFrom, h3, ih h4 fuel (by omega)]

/-- **C09**. Any history of push / enqueue / pop on a new list never follows a
dangling pointer, returns exactly what the abstract double-ended list returns
(`none`, i.e. NULL, exactly when the abstract list is empty), and afterwards
`aa_mem_rlist_map` terminates and visits exactly the abstract list in order. -/
theorem C09_rlist_refines_deque {α} (ops : List (Op α)) :
    ∃ l, run new ops = some (l, (specRun [] ops).2) ∧
      ∀ fuel, (specRun [] ops).1.length ≤ fuel →
        mapFrom l.cells fuel l.head = some (specRun [] ops).1 := by
  have h0 : Inv (new : RL α) [] [] := ⟨⟨rfl, rfl⟩, by simp, by simp, rfl⟩
  obtain ⟨l, ids, h1, h2⟩ := run_inv h0 ops
  exact ⟨l, h1, fun fuel hf => map_chain h2.chain fuel hf⟩

example : specRun [] [.push 1, .enqueue 2, .push 0, .pop, .pop, .pop, .pop, .enqueue 7, .enqueue 8] =
    ([7, 8], [none, none, none, some 0, some 1, some 2, none, none, none]) := by decide

end Verif.RList
