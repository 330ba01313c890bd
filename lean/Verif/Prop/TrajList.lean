import Verif.Model.Traj
import Mathlib.Data.List.Destutter
import Mathlib.Tactic.NormNum
import Mathlib.Tactic.Linarith

/-!
# C44: point lists

Specification: `Same` says when two states count as the same point; Mathlib's `List.destutter`
keeps the first element of a list and each later one that is not the same as the last one kept.
-/

namespace Verif.Ct

/-! ## Specification -/

/-- Two optional arrays agree: both absent, or both present with the first `n` entries within the
tolerance. -/
def SameArr (n : Nat) (a b : Option (Nat → ℝ)) : Prop :=
  (a = none ∧ b = none) ∨
    ∃ f g, a = some f ∧ b = some g ∧ ∀ i < n, |f i - g i| ≤ 1 / 1000

/-- Same point: same sizes, and position, velocity, acceleration (joint and work space) agree. -/
def Same (s1 s2 : CtState) : Prop :=
  s1.nq = s2.nq ∧ s1.ntf = s2.ntf ∧ SameArr s1.nq s1.q s2.q ∧ SameArr s1.nq s1.dq s2.dq ∧
    SameArr s1.nq s1.ddq s2.ddq ∧ SameArr 7 s1.X s2.X ∧ SameArr 6 s1.dX s2.dX ∧
    SameArr 6 s1.ddX s2.ddX

/-- The stored copies in list order. -/
def PList.contents (l : PList CtState) : List CtState := l.list.map l.val

/-- One call: `true` adds at the back, `false` at the front. -/
noncomputable def ptCall (l : PList CtState) (c : Bool × CtState) : PList CtState :=
  if c.1 then ptAdd l c.2 else ptAddFront l c.2

/-- States added at one end, in call order. -/
def endCalls (e : Bool) (cs : List (Bool × CtState)) : List CtState :=
  (cs.filter fun c => c.1 == e).map Prod.snd

/-- Not the same point. -/
def Differs (a b : CtState) : Prop := ¬ Same a b

noncomputable instance : DecidableRel Differs := fun _ _ => Classical.propDecidable _

/-! ## Proofs -/

theorem veq_iff (n : Nat) (a b : Nat → ℝ) : veq n a b = true ↔ ∀ i < n, |a i - b i| ≤ 1 / 1000 := by
  induction n with
  | zero => simp [veq]
  | succ n ih =>
    rw [veq, Bool.and_eq_true, ih, decide_eq_true_iff, eps]
    constructor
    · rintro ⟨h, h'⟩ i hi
      rcases Nat.lt_succ_iff_lt_or_eq.1 hi with hi | rfl
      · exact h i hi
      · exact h'
    · intro h
      exact ⟨fun i hi => h i (by omega), h n (by omega)⟩

theorem arrEq_iff (n : Nat) (a b : Option (Nat → ℝ)) : arrEq n a b = true ↔ SameArr n a b := by
  cases a <;> cases b <;> simp [arrEq, SameArr, veq_iff]

theorem stateEq_iff (a b : CtState) : stateEq a b = true ↔ Same a b := by
  unfold stateEq Same
  split
  · rename_i h
    constructor
    · intro h'; simp at h'
    · rintro ⟨h1, h2, _⟩
      rcases h with h | h
      · exact absurd h1 h
      · exact absurd h2 h
  · rename_i h
    push Not at h
    simp only [Bool.and_eq_true, arrEq_iff]
    tauto

theorem sameArr_clone (n : Nat) (a b : Option (Nat → ℝ)) :
    SameArr n (cloneArr n a) b ↔ SameArr n a b := by
  rw [← arrEq_iff, ← arrEq_iff]
  cases a <;> cases b <;> simp only [cloneArr, Option.map, arrEq]
  rw [veq_iff, veq_iff]
  constructor
  · intro h i hi; have := h i hi; rwa [if_pos hi] at this
  · intro h i hi; rw [if_pos hi]; exact h i hi

/-- Comparing with the stored copy is comparing with the state itself. -/
theorem same_clone (a b : CtState) : Same (stateClone a) b ↔ Same a b := by
  unfold Same stateClone
  simp only [sameArr_clone]

/-- Nodes are distinct and were allocated before. -/
def PList.Wf (l : PList CtState) : Prop := l.list.Nodup ∧ ∀ k ∈ l.list, k < l.fresh

theorem PList.Wf.not_mem {l : PList CtState} (h : l.Wf) : l.fresh ∉ l.list :=
  fun hk => absurd (h.2 _ hk) (lt_irrefl _)

theorem wf_add {l : PList CtState} (h : l.Wf) (v : CtState) : (l.add v).Wf := by
  have hn := h.not_mem
  refine ⟨?_, ?_⟩
  · simp only [PList.add]
    rw [List.nodup_append]
    refine ⟨h.1, List.nodup_singleton _, ?_⟩
    intro a ha b hb e
    rw [List.mem_singleton] at hb
    subst hb; subst e; exact hn ha
  · intro k hk
    simp only [PList.add, List.mem_append, List.mem_singleton] at hk ⊢
    rcases hk with hk | rfl
    · exact Nat.lt_succ_of_lt (h.2 k hk)
    · exact Nat.lt_succ_self _

theorem wf_addFront {l : PList CtState} (h : l.Wf) (v : CtState) : (l.addFront v).Wf := by
  have hn := h.not_mem
  refine ⟨?_, ?_⟩
  · simp only [PList.addFront]
    exact List.nodup_cons.2 ⟨hn, h.1⟩
  · intro k hk
    simp only [PList.addFront, List.mem_cons] at hk ⊢
    rcases hk with rfl | hk
    · exact Nat.lt_succ_self _
    · exact Nat.lt_succ_of_lt (h.2 k hk)

theorem map_update {l : PList CtState} (h : l.Wf) (v : CtState) :
    l.list.map (Function.update l.val l.fresh v) = l.list.map l.val := by
  apply List.map_congr_left
  intro k hk
  exact Function.update_of_ne (fun e : k = l.fresh => h.not_mem (e ▸ hk)) _ _

theorem contents_add {l : PList CtState} (h : l.Wf) (v : CtState) :
    (l.add v).contents = l.contents ++ [v] := by
  simp only [PList.contents, PList.add, List.map_append, map_update h, List.map_cons,
    List.map_nil, Function.update_self]

theorem contents_addFront {l : PList CtState} (h : l.Wf) (v : CtState) :
    (l.addFront v).contents = v :: l.contents := by
  simp only [PList.contents, PList.addFront, List.map_cons, map_update h, Function.update_self]

theorem ptAdd_eq (l : PList CtState) (s : CtState) :
    ptAdd l s = match l.contents.getLast? with
      | none => l.add (stateClone s)
      | some p => if stateEq p s then l else l.add (stateClone s) := by
  simp only [ptAdd, PList.contents, List.getLast?_map]
  cases l.list.getLast? <;> rfl

theorem ptAddFront_eq (l : PList CtState) (s : CtState) :
    ptAddFront l s = match l.contents.head? with
      | none => l.addFront (stateClone s)
      | some p => if stateEq p s then l else l.addFront (stateClone s) := by
  simp only [ptAddFront, PList.contents, List.head?_map]
  cases l.list.head? <;> rfl

theorem destutter'_snoc (l : List CtState) (a x : CtState) :
    (l ++ [x]).destutter' Differs a =
      if Differs ((l.destutter' Differs a).getLast (List.destutter'_ne_nil _ _)) x
      then l.destutter' Differs a ++ [x] else l.destutter' Differs a := by
  induction l generalizing a with
  | nil =>
    simp only [List.nil_append, List.destutter'_nil, List.getLast_singleton]
    rw [List.destutter'_singleton]
    rfl
  | cons b l ih =>
    by_cases h : Differs a b
    · simp only [List.cons_append, List.destutter'_cons_pos _ h, ih]
      rw [List.getLast_cons (List.destutter'_ne_nil _ _)]
      split <;> rfl
    · simp only [List.cons_append, List.destutter'_cons_neg _ h, ih]


theorem stateEq_clone (p s : CtState) : stateEq (stateClone p) s = true ↔ ¬ Differs p s := by
  rw [stateEq_iff, same_clone, Differs, not_not]

/-- A list shaped like the specification: `x :: tl` grew at the front, `x :: bs` at the back. -/
theorem ptAdd_spec {l : PList CtState} (h : l.Wf) {F B : List CtState} (hB : B ≠ [])
    (hl : l.contents = (F.reverse ++ B).map stateClone) (s : CtState) :
    (ptAdd l s).Wf ∧ (ptAdd l s).contents =
      (F.reverse ++ if Differs (B.getLast hB) s then B ++ [s] else B).map stateClone := by
  have e : l.contents.getLast? = some (stateClone (B.getLast hB)) := by
    rw [hl, List.getLast?_map, List.getLast?_append, List.getLast?_eq_getLast_of_ne_nil hB]; rfl
  rw [ptAdd_eq, e]
  simp only
  by_cases hd : Differs (B.getLast hB) s
  · rw [if_neg (by rw [stateEq_clone]; exact not_not.2 hd), if_pos hd]
    refine ⟨wf_add h _, ?_⟩
    rw [contents_add h, hl]; simp
  · rw [if_pos ((stateEq_clone _ _).2 hd), if_neg hd]
    exact ⟨h, hl⟩

theorem ptAddFront_spec {l : PList CtState} (h : l.Wf) {x : CtState} {tl B : List CtState}
    (hl : l.contents = (tl.reverse ++ x :: B).map stateClone) (s : CtState) :
    (ptAddFront l s).Wf ∧ (ptAddFront l s).contents =
      ((if Differs ((x :: tl).getLast (List.cons_ne_nil _ _)) s then tl ++ [s] else tl).reverse
        ++ x :: B).map stateClone := by
  have e : l.contents.head? = some (stateClone ((x :: tl).getLast (List.cons_ne_nil _ _))) := by
    rw [hl, List.head?_map]
    rcases List.eq_nil_or_concat tl with rfl | ⟨tl', y, rfl⟩
    · rfl
    · simp
  rw [ptAddFront_eq, e]
  simp only
  by_cases hd : Differs ((x :: tl).getLast (List.cons_ne_nil _ _)) s
  · rw [if_neg (by rw [stateEq_clone]; exact not_not.2 hd), if_pos hd]
    refine ⟨wf_addFront h _, ?_⟩
    rw [contents_addFront h, hl]; simp
  · rw [if_pos ((stateEq_clone _ _).2 hd), if_neg hd]
    exact ⟨h, hl⟩

theorem destutter'_head (l : List CtState) (a : CtState) :
    ∃ tl, l.destutter' Differs a = a :: tl := by
  induction l generalizing a with
  | nil => exact ⟨[], rfl⟩
  | cons b l ih =>
    by_cases h : Differs a b
    · exact ⟨_, List.destutter'_cons_pos _ h⟩
    · rw [List.destutter'_cons_neg _ h]; exact ih a

theorem endCalls_snoc (e : Bool) (cs : List (Bool × CtState)) (c : Bool × CtState) :
    endCalls e (cs ++ [c]) = if c.1 = e then endCalls e cs ++ [c.2] else endCalls e cs := by
  simp only [endCalls, List.filter_append, List.map_append, List.filter_cons, List.filter_nil]
  by_cases h : c.1 = e
  · simp [h]
  · rw [if_neg h, if_neg (by simpa using h)]; simp

theorem calls_spec (d : CtState) (c : Bool × CtState) (cs : List (Bool × CtState)) :
    ((c :: cs).foldl ptCall (PList.empty d)).Wf ∧
    ((c :: cs).foldl ptCall (PList.empty d)).contents =
      (((c.2 :: endCalls false cs).destutter Differs).tail.reverse ++
        (c.2 :: endCalls true cs).destutter Differs).map stateClone := by
  have w0 : (PList.empty d).Wf := ⟨List.nodup_nil, by simp [PList.empty]⟩
  have h0 : (PList.empty d).contents = [] := rfl
  induction cs using List.reverseRecOn with
  | nil =>
    obtain ⟨b, s⟩ := c
    cases b
    · have e : List.foldl ptCall (PList.empty d) [(false, s)] = (PList.empty d).addFront (stateClone s) := rfl
      rw [e]
      refine ⟨wf_addFront w0 _, ?_⟩
      rw [contents_addFront w0, h0]; rfl
    · have e : List.foldl ptCall (PList.empty d) [(true, s)] = (PList.empty d).add (stateClone s) := rfl
      rw [e]
      refine ⟨wf_add w0 _, ?_⟩
      rw [contents_add w0, h0]; rfl
  | append_singleton cs c' ih =>
    obtain ⟨w, ih⟩ := ih
    have e : List.foldl ptCall (PList.empty d) (c :: (cs ++ [c'])) =
        ptCall (List.foldl ptCall (PList.empty d) (c :: cs)) c' := by
      rw [← List.cons_append, List.foldl_append]; rfl
    rw [e]
    generalize List.foldl ptCall (PList.empty d) (c :: cs) = l at w ih
    obtain ⟨b, s⟩ := c'
    rw [endCalls_snoc, endCalls_snoc]
    obtain ⟨tl, ht⟩ := destutter'_head (endCalls false cs) c.2
    cases b
    · rw [if_pos rfl, if_neg (by simp)]
      simp only [List.destutter_cons', ptCall] at ih ⊢
      rw [if_neg (by simp)]
      obtain ⟨bs, hb⟩ := destutter'_head (endCalls true cs) c.2
      rw [ht, hb] at ih
      have := ptAddFront_spec (tl := tl) w ih s
      refine ⟨this.1, this.2.trans ?_⟩
      rw [destutter'_snoc, hb]
      simp only [ht]
      by_cases hd : Differs ((c.2 :: tl).getLast (List.cons_ne_nil _ _)) s
      · rw [if_pos hd, if_pos hd]; rfl
      · rw [if_neg hd, if_neg hd]; rfl
    · rw [if_neg (by simp), if_pos rfl]
      simp only [List.destutter_cons', ptCall] at ih ⊢
      rw [if_pos (by simp)]
      have := ptAdd_spec w (List.destutter'_ne_nil _ _) ih s
      refine ⟨this.1, this.2.trans ?_⟩
      rw [destutter'_snoc]

/-- The explicit links agree with the list. -/
def PList.Linked (l : PList CtState) : Prop :=
  l.list.IsChain fun a b => l.next a = .node b ∧ l.prev b = .node a

theorem linked_add {l : PList CtState} (w : l.Wf) (h : l.Linked) (v : CtState) :
    (l.add v).Linked := by
  have hn := w.not_mem
  unfold PList.Linked at h ⊢
  simp only [PList.add]
  rw [List.isChain_append]
  refine ⟨?_, List.isChain_singleton _, ?_⟩
  · rw [List.isChain_iff_getElem] at h ⊢
    intro i hi
    obtain ⟨h1, h2⟩ := h i hi
    have m1 : l.list[i] ∈ l.list := List.getElem_mem _
    have m2 : l.list[i+1] ∈ l.list := List.getElem_mem _
    have n1 : l.list[i] ≠ l.fresh := fun e => hn (e ▸ m1)
    have n2 : l.list[i+1] ≠ l.fresh := fun e => hn (e ▸ m2)
    rw [Function.update_of_ne n2]
    refine ⟨?_, h2⟩
    cases hb : l.list.getLast? with
    | none => simp only; rw [Function.update_of_ne n1]; exact h1
    | some b =>
      simp only
      have n3 : l.list[i] ≠ b := by
        intro e
        rw [List.getLast?_eq_getElem?, List.getElem?_eq_getElem (by omega)] at hb
        have hb := Option.some.inj hb
        have := (List.Nodup.getElem_inj_iff w.1).1 (e.trans hb.symm)
        omega
      rw [Function.update_of_ne n3, Function.update_of_ne n1]; exact h1
  · intro x hx y hy
    simp only [List.head?_cons, Option.mem_def, Option.some.injEq] at hy
    rw [Option.mem_def] at hx
    subst hy
    simp only [PList.back, hx, Function.update_self, and_self]

theorem linked_addFront {l : PList CtState} (w : l.Wf) (h : l.Linked) (v : CtState) :
    (l.addFront v).Linked := by
  have hn := w.not_mem
  unfold PList.Linked at h ⊢
  simp only [PList.addFront]
  cases hl : l.list with
  | nil => exact List.isChain_singleton _
  | cons b bs =>
    rw [hl] at hn h
    have wn := w.1
    rw [hl] at wn
    refine List.IsChain.cons_cons ?_ ?_
    · simp only [List.head?_cons, PList.front, hl, Function.update_self, and_self]
    · rw [List.isChain_iff_getElem] at h ⊢
      intro i hi
      obtain ⟨h1, h2⟩ := h i hi
      have m1 : (b :: bs)[i] ∈ b :: bs := List.getElem_mem _
      have m2 : (b :: bs)[i+1] ∈ b :: bs := List.getElem_mem _
      have n1 : (b :: bs)[i] ≠ l.fresh := fun e => hn (e ▸ m1)
      have n2 : (b :: bs)[i+1] ≠ l.fresh := fun e => hn (e ▸ m2)
      have n3 : (b :: bs)[i+1] ≠ b := by
        intro e
        have := (List.Nodup.getElem_inj_iff wn (i := i + 1) (j := 0) (hi := hi) (hj := by simp)).1 e
        omega
      simp only [List.head?_cons]
      rw [Function.update_of_ne n1, Function.update_of_ne n3, Function.update_of_ne n2]
      exact ⟨h1, h2⟩

theorem call_linked {l : PList CtState} (w : l.Wf) (h : l.Linked) (c : Bool × CtState) :
    (ptCall l c).Wf ∧ (ptCall l c).Linked := by
  unfold ptCall
  split
  · unfold ptAdd
    split
    · exact ⟨wf_add w _, linked_add w h _⟩
    · split
      · exact ⟨w, h⟩
      · exact ⟨wf_add w _, linked_add w h _⟩
  · unfold ptAddFront
    split
    · exact ⟨wf_addFront w _, linked_addFront w h _⟩
    · split
      · exact ⟨w, h⟩
      · exact ⟨wf_addFront w _, linked_addFront w h _⟩

theorem ptCall_wf {l : PList CtState} (w : l.Wf) (c : Bool × CtState) : (ptCall l c).Wf := by
  unfold ptCall
  split
  · unfold ptAdd
    split
    · exact wf_add w _
    · split
      · exact w
      · exact wf_add w _
  · unfold ptAddFront
    split
    · exact wf_addFront w _
    · split
      · exact w
      · exact wf_addFront w _

/-! ## Properties -/

/-- After any sequence of additions at either end, the list holds copies of the added points: those
added at the front in reverse order, then those added at the back, each without the points that
were the same as the end point at that time. -/
theorem C44_contents_partial (d : CtState) (c : Bool × CtState) (cs : List (Bool × CtState)) :
    ((c :: cs).foldl ptCall (PList.empty d)).contents =
      (((c.2 :: endCalls false cs).destutter Differs).tail.reverse ++
        (c.2 :: endCalls true cs).destutter Differs).map stateClone :=
  (calls_spec d c cs).2

/-- Additions at the back only. -/
theorem C44_back_partial (d : CtState) (ps : List CtState) :
    (ps.foldl ptAdd (PList.empty d)).contents = (ps.destutter Differs).map stateClone := by
  cases ps with
  | nil => rfl
  | cons p ps =>
    have h := (calls_spec d (true, p) (ps.map fun s => (true, s))).2
    have e1 : endCalls false (ps.map fun s => (true, s)) = [] := by
      simp [endCalls, List.filter_map, Function.comp_def]
    have e2 : endCalls true (ps.map fun s => (true, s)) = ps := by
      simp [endCalls, List.filter_map, Function.comp_def]
    rw [e1, e2] at h
    rw [← List.map_cons (f := fun s => (true, s)), List.foldl_map] at h
    simpa [ptCall] using h

/-- Additions at the front only: the mirror image. -/
theorem C44_front_partial (d : CtState) (ps : List CtState) :
    (ps.foldl ptAddFront (PList.empty d)).contents =
      (ps.destutter Differs).reverse.map stateClone := by
  cases ps with
  | nil => rfl
  | cons p ps =>
    have h := (calls_spec d (false, p) (ps.map fun s => (false, s))).2
    have e1 : endCalls true (ps.map fun s => (false, s)) = [] := by
      simp [endCalls, List.filter_map, Function.comp_def]
    have e2 : endCalls false (ps.map fun s => (false, s)) = ps := by
      simp [endCalls, List.filter_map, Function.comp_def]
    rw [e1, e2] at h
    rw [← List.map_cons (f := fun s => (false, s)), List.foldl_map] at h
    simp only [ptCall, Bool.false_eq_true, if_false] at h
    rw [h]
    simp only [List.destutter_cons', List.destutter'_nil]
    obtain ⟨tl, ht⟩ := destutter'_head ps p
    rw [ht]; simp

/-- The accessors report the ends and the length of that list, and the explicit links join
neighbouring nodes in both directions. -/
theorem C44_access_partial (d : CtState) (cs : List (Bool × CtState)) :
    let l := cs.foldl ptCall (PList.empty d)
    startState l = l.contents.head? ∧ finalState l = l.contents.getLast? ∧
      ptSize l = l.contents.length ∧
      ∀ i (h : i + 1 < l.list.length), l.next l.list[i] = .node l.list[i + 1] ∧
        l.prev l.list[i + 1] = .node l.list[i] := by
  refine ⟨by simp [startState, PList.contents], by simp [finalState, PList.contents],
    by simp [ptSize, PList.contents], ?_⟩
  have : (cs.foldl ptCall (PList.empty d)).Wf ∧ (cs.foldl ptCall (PList.empty d)).Linked := by
    induction cs using List.reverseRecOn with
    | nil => exact ⟨⟨List.nodup_nil, by simp [PList.empty]⟩, List.isChain_nil⟩
    | append_singleton cs c ih =>
      rw [List.foldl_append]
      exact call_linked ih.1 ih.2 c
  exact List.isChain_iff_getElem.1 this.2

/-- Defect: whatever points are added at the back, the `prev` link of the first one is what
`back()` returned on the empty `std::list`, which is undefined. -/
theorem C44_violates_first_link (d p : CtState) (ps : List CtState) :
    let l := (p :: ps).foldl ptAdd (PList.empty d)
    ∃ k, l.list.head? = some k ∧ l.prev k = .indet := by
  suffices h : ∀ l : PList CtState, l.Wf → (∃ k, l.list.head? = some k ∧ l.prev k = .indet) →
      ∃ k, (ps.foldl ptAdd l).list.head? = some k ∧ (ps.foldl ptAdd l).prev k = .indet by
    refine h (ptAdd (PList.empty d) p) (wf_add ⟨List.nodup_nil, by simp [PList.empty]⟩ _)
      ⟨0, rfl, ?_⟩
    simp [ptAdd, PList.add, PList.empty, PList.back]
  induction ps with
  | nil => exact fun l _ h => h
  | cons q ps ih =>
    intro l w ⟨k, hk, hp⟩
    have hm : k ∈ l.list := List.mem_of_head? hk
    have key : ∀ v, ∃ k, (l.add v).list.head? = some k ∧ (l.add v).prev k = .indet := by
      intro v
      refine ⟨k, by simp [PList.add, hk], ?_⟩
      simp only [PList.add]
      rw [Function.update_of_ne (fun e : k = l.fresh => w.not_mem (e ▸ hm))]
      exact hp
    refine ih (ptAdd l q) ?_ ?_
    · exact (ptCall_wf w (true, q))
    · unfold ptAdd
      split
      · exact key _
      · split
        · exact ⟨k, hk, hp⟩
        · exact key _

/-- A one-joint state holding only a position. -/
def posState (x : ℝ) : CtState :=
  ⟨1, 0, some fun _ => x, none, none, none, none, none, none, none, none⟩

/-- Defect: a point that differs from the end point is dropped when it is within 0.001 of it in
every coordinate, so a path of small steps loses all its points but the first. -/
theorem C44_violates_near_points (d : CtState) :
    (([posState 0, posState (1 / 2000), posState (1 / 1000)]).foldl ptAdd
      (PList.empty d)).contents = [stateClone (posState 0)] ∧
      stateClone (posState 0) ≠ stateClone (posState (1 / 1000)) := by
  have s : ∀ x y : ℝ, |x - y| ≤ 1 / 1000 → ¬ Differs (posState x) (posState y) := by
    intro x y h
    rw [Differs, not_not]
    refine ⟨rfl, rfl, Or.inr ⟨_, _, rfl, rfl, fun _ _ => h⟩, ?_, ?_, ?_, ?_, ?_⟩ <;>
      exact Or.inl ⟨rfl, rfl⟩
  constructor
  · rw [C44_back_partial, List.destutter_cons', List.destutter'_cons_neg _ (s _ _ _),
      List.destutter'_cons_neg _ (s _ _ _)]
    · rfl
    · norm_num
    · norm_num
  · intro h
    have := congrFun (Option.some.inj (congrArg CtState.q h)) 0
    norm_num [posState, cloneArr] at this

/-- Two distinct points are both kept, in order. -/
example (d : CtState) : (([posState 0, posState 1]).foldl ptAdd (PList.empty d)).contents =
    [stateClone (posState 0), stateClone (posState 1)] := by
  rw [C44_back_partial, List.destutter_cons', List.destutter'_cons_pos]
  · rfl
  · intro h
    obtain ⟨_, _, h, _⟩ := h
    rcases h with ⟨h, _⟩ | ⟨f, g, hf, hg, h⟩
    · simp [posState] at h
    · have := h 0 (by simp [posState])
      simp only [posState, Option.some.injEq] at hf hg
      rw [← hf, ← hg] at this
      norm_num at this

end Verif.Ct
