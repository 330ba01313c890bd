import Verif.Model.TrajArr
import Verif.Prop.TrajChk

/-!
# C47: the links between blended segments

The evaluation of a blended segment reads the contexts of its neighbours through the links
`aa_ct_list_add` made.
-/

namespace Verif.Ct

variable {k : Nat}

theorem pbNodes_spec (d : Pb k) (cs : List (Pb k)) :
    (pbNodes d cs).list = List.range cs.length ∧ (pbNodes d cs).fresh = cs.length ∧
    ∀ j, (hj : j < cs.length) → (pbNodes d cs).val j = cs[j] ∧
      (pbNodes d cs).prev j = (if j = 0 then .indet else .node (j - 1)) ∧
      (pbNodes d cs).next j = (if j + 1 < cs.length then .node (j + 1) else .null) := by
  induction cs using List.reverseRecOn with
  | nil => exact ⟨rfl, rfl, fun j hj => absurd hj (by simp)⟩
  | append_singleton cs c ih =>
    obtain ⟨h1, h2, h3⟩ := ih
    have e : pbNodes d (cs ++ [c]) = (pbNodes d cs).add c := by simp [pbNodes, List.foldl_append]
    have hl : (pbNodes d cs).list.getLast? = if cs.length = 0 then none else some (cs.length - 1) := by
      rw [h1]
      cases cs.length with
      | zero => rfl
      | succ m => simp [List.range_succ]
    have hb : (pbNodes d cs).back = if cs.length = 0 then .indet else .node (cs.length - 1) := by
      unfold PList.back
      rw [hl]
      split <;> split <;> simp_all
    rw [e]
    refine ⟨?_, ?_, ?_⟩
    · simp [PList.add, h1, h2, List.range_succ]
    · simp [PList.add, h2]
    · intro j hj
      simp only [List.length_append, List.length_singleton] at hj
      simp only [PList.add, h2, hb, hl]
      rcases Nat.lt_succ_iff_lt_or_eq.1 hj with hj' | rfl
      · obtain ⟨v, p, n⟩ := h3 j hj'
        have hne : j ≠ cs.length := by omega
        have hc0 : cs.length ≠ 0 := by omega
        refine ⟨?_, ?_, ?_⟩
        · rw [Function.update_of_ne hne, v, List.getElem_append_left]
        · rw [Function.update_of_ne hne, p]
        · simp only [if_neg hc0]
          by_cases hlast : j = cs.length - 1
          · subst hlast
            rw [Function.update_self, if_pos (by simp; omega)]
            congr 1; omega
          · rw [Function.update_of_ne hlast, Function.update_of_ne hne, n, if_pos (by omega),
              if_pos (by simp; omega)]
      · refine ⟨?_, ?_, ?_⟩
        · rw [Function.update_self]; simp
        · rw [Function.update_self]
        · have hr : ¬ cs.length + 1 < (cs ++ [c]).length := by simp
          rw [if_neg hr]
          by_cases hc0 : cs.length = 0
          · simp only [if_pos hc0]
            exact Function.update_self ..
          · simp only [if_neg hc0]
            rw [Function.update_of_ne (by omega : cs.length ≠ cs.length - 1), Function.update_self]

/-- Every segment but the first is evaluated with the contexts of its neighbours. -/
theorem C47_links_partial (d : Pb k) (cs : List (Pb k)) (j : Nat) (hj : j + 1 < cs.length)
    (st : St k) (t : ℝ) :
    pbEvalNode (pbNodes d cs) (j + 1) st t = some (pbEval (some cs[j]) cs[j + 1] cs[j + 2]? st t) := by
  obtain ⟨-, -, h⟩ := pbNodes_spec d cs
  obtain ⟨v, p, n⟩ := h (j + 1) hj
  obtain ⟨v0, -, -⟩ := h j (by omega)
  rw [pbEvalNode, p, n, v, if_neg (by omega)]
  simp only [Nat.add_sub_cancel, linkCx, v0, Option.bind_eq_bind, Option.bind_some]
  by_cases h2 : j + 1 + 1 < cs.length
  · rw [if_pos h2, List.getElem?_eq_getElem h2]
    simp only [linkCx, (h _ h2).1, Option.bind_some]
  · rw [if_neg h2, List.getElem?_eq_none (by omega)]
    rfl

/-- Defect: evaluating the first segment of any blended trajectory reads a link that was taken from
the back of an empty `std::list`. -/
theorem C47_violates_first_link (d : Pb k) (cs : List (Pb k)) (hcs : cs ≠ []) (st : St k) (t : ℝ) :
    (pbNodes d cs).list.head? = some 0 ∧ pbEvalNode (pbNodes d cs) 0 st t = none := by
  obtain ⟨hl, -, h⟩ := pbNodes_spec d cs
  have h0 : 0 < cs.length := List.length_pos_iff.2 hcs
  obtain ⟨v, p, n⟩ := h 0 h0
  constructor
  · rw [hl]
    cases hc : cs.length with
    | zero => omega
    | succ m => simp [List.head?_range]
  · rw [pbEvalNode, p]
    rfl

/-- If the first link were `NULL`, the list would be evaluated as `pbSegs`, which the other theorems
on C47 use. -/
theorem C47_null_first_link_partial (d c : Pb k) (cs : List (Pb k)) (st : St k) (t : ℝ) :
    let l := pbNodes d (c :: cs)
    pbEvalNode { l with prev := Function.update l.prev 0 .null } 0 st t =
      some (pbEval none c cs.head? st t) := by
  intro l
  obtain ⟨-, -, h⟩ := pbNodes_spec d (c :: cs)
  obtain ⟨v, p, n⟩ := h 0 (by simp)
  have hv : l.val 0 = c := v
  have hn : l.next 0 = _ := n
  simp only [pbEvalNode, Function.update_self, linkCx, Option.bind_eq_bind, Option.bind_some, hv, hn]
  cases cs with
  | nil => rfl
  | cons m cs =>
    have h1 : l.val 1 = m := (h 1 (by simp)).1
    rw [if_pos (by simp)]
    simp only [linkCx, Option.bind_some, List.head?_cons, Nat.zero_add, h1]

/-- A list of two segments. -/
example : hundred ≠ [] ∧ 0 + 1 < hundred.length := ⟨by simp [hundred], by simp [hundred]⟩

end Verif.Ct
