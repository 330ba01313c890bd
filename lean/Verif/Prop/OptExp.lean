/-
C155: linear programs written as symbolic constraints.
-/
import Verif.Proof.OptExpMat
import Mathlib.Algebra.Order.Ring.Rat
import Mathlib.Data.Rat.Defs

namespace Verif.OptExp

variable {V K : Type} [LinearOrder V] [Field K] [LinearOrder K] [IsStrictOrderedRing K]

/-- C155: with the default upper bound of `lp` and no integer variables, whatever reaches the solver is the
program that was written.  The variables are those that occur, each once.  The objective is the given sum.
The binary variables are the given ones.  A point whose sums lie within the default bounds of rows is
feasible iff it satisfies the constraints, and the default bounds where a variable has none of its own. -/
theorem C155_lp_partial (big : K) (later : Bool) (cs : List (Cstr V K)) (objs : List (K × V)) (bins : List V)
    (dxl dbl dbu : K) (M : Mats V K) (is bs : List V)
    (h : lp big later cs objs bins [] dxl big dbl dbu = some (M, is, bs)) :
    M.vars.Nodup ∧ (∀ v, v ∈ M.vars ↔ Occurs cs objs v) ∧ M.n = M.vars.length ∧ M.Wf ∧
    (∀ y : Nat → K, ∑ j ∈ Finset.range M.n, M.c j * y j = lin objs (fun v => y (M.vars.idxOf v))) ∧
    (∀ v, v ∉ is) ∧ (∀ v, v ∈ bs ↔ v ∈ bins) ∧
    ∀ y : Nat → K, (∀ c ∈ cs, dbl ≤ lin c.terms (fun v => y (M.vars.idxOf v)) ∧
        lin c.terms (fun v => y (M.vars.idxOf v)) ≤ dbu) →
      (M.Feasible y ↔ Sat cs objs dxl big (fun v => y (M.vars.idxOf v))) := by
  obtain ⟨h1, h2, h3, h4, h5, h6, h7, h8⟩ := lp_spec _ _ _ _ _ _ _ _ _ _ _ _ _ h
  exact ⟨h1, h2, h3, h4, h5, by simp [h6], by simpa using h7, h8⟩

/-- C155: `lp` gets to the solver if some constraint names two variables, constraints about one variable
alone have the same factor, which is not 0, a sum that is set equal to a value is never compared with another
value, and the typed variables occur. -/
theorem C155_accepts_partial (big : K) (later : Bool) (cs : List (Cstr V K)) (objs : List (K × V))
    (bins ints : List V) (dxl dxu dbl dbu : K)
    (heq : ∀ c ∈ cs, ∀ d ∈ cs, c.rel = .eq → (∀ x, lin d.terms x = lin c.terms x) → d.rhs = c.rhs)
    (hone : ∀ c ∈ cs, ∀ d ∈ cs, ∀ v, c.Only v → d.Only v → c.factor = d.factor)
    (hnz : ∀ c ∈ cs, ∀ v, c.Only v → c.factor ≠ 0)
    (hrow : ∃ c ∈ cs, ∃ t ∈ c.terms, ∃ u ∈ c.terms, t.2 ≠ u.2)
    (hbin : ∀ v, v ∈ bins ∨ v ∈ ints → Occurs cs objs v) :
    ∃ r, lp big later cs objs bins ints dxl dxu dbl dbu = some r :=
  lp_some big later cs objs bins ints dxl dxu dbl dbu heq hone hnz hrow hbin

/-- x + 2y + x ≤ 4, x + y ≥ 1, -x ≤ -1. -/
def exCs : List (Cstr Nat ℚ) :=
  [⟨.le, [(1, 0), (2, 1), (1, 0)], 4⟩, ⟨.ge, [(1, 1), (1, 0)], 1⟩, ⟨.le, [(-1, 0)], -1⟩]

/-- The hypotheses of `C155_lp_partial` hold for a program, and it has feasible and infeasible points. -/
example : (lp 1000 true exCs [(1, 0), (3, 1)] [1] [] 0 1000 (-1000) 1000).any (fun r => decide (
    r.1.m = 2 ∧ r.1.n = 2 ∧ r.1.A.vals = [2, 2, 1, 1] ∧ r.1.A.cols = [0, 1, 0, 1] ∧ r.1.A.ptrs = [0, 2, 4] ∧
    r.2.2 = [1] ∧ r.1.xl 0 = 1 ∧ r.1.xl 1 = 0 ∧ r.1.bu 0 = 4 ∧ r.1.bl 1 = 1 ∧ r.1.c 1 = 3)) = true := by
  decide +kernel

example : Sat exCs [(1, 0), (3, 1)] (0 : ℚ) 1000 (fun _ => 1) ∧ ¬ Sat exCs [(1, 0), (3, 1)] (0 : ℚ) 1000 (fun _ => 2) := by
  constructor
  · refine ⟨?_, fun v _ => ⟨fun _ => by norm_num, fun _ => by norm_num⟩⟩
    intro c hc
    simp only [exCs, List.mem_cons, List.not_mem_nil, or_false] at hc
    rcases hc with rfl | rfl | rfl <;> simp [Cstr.Holds, lin] <;> norm_num
  · rintro ⟨h, -⟩
    have := h _ (List.mem_cons_self)
    simp [Cstr.Holds, lin] at this; norm_num at this

/-- The hypotheses of `C155_accepts_partial` hold for it. -/
example : ∃ r, lp 1000 false exCs [(1, 0)] [1] [] 0 1000 (-1000) (1000 : ℚ) = some r := by
  have ho : ∀ c ∈ exCs, ∀ v, c.Only v → c = ⟨.le, [(-1, 0)], -1⟩ := by
    intro c hc v h
    simp only [exCs, List.mem_cons, List.not_mem_nil, or_false] at hc
    rcases hc with rfl | rfl | rfl
    · have h0 := h.2 (1, 0) (by simp); have h1 := h.2 (2, 1) (by simp); simp at h0 h1; omega
    · have h0 := h.2 (1, 0) (by simp); have h1 := h.2 (1, 1) (by simp); simp at h0 h1; omega
    · rfl
  refine C155_accepts_partial _ _ _ _ _ _ _ _ _ _ ?_ ?_ ?_ ?_ ?_
  · intro c hc d _ he
    simp only [exCs, List.mem_cons, List.not_mem_nil, or_false] at hc
    rcases hc with rfl | rfl | rfl <;> simp at he
  · intro c hc d hd v h1 h2
    rw [ho c hc v h1, ho d hd v h2]
  · intro c hc v h1
    rw [ho c hc v h1]; simp [Cstr.factor]
  · exact ⟨_, List.mem_cons_self, (1, 0), by simp, (2, 1), by simp, by simp⟩
  · rintro v (h | h)
    · simp at h; subst h; exact Or.inl ⟨_, List.mem_cons_self, (2, 1), by simp, rfl⟩
    · simp at h

/-- C155 fails: integer variables are never integer for the solver, they are binary.  This holds for every
program that gets there. -/
theorem C155_integer_violates (big : K) (later : Bool) (cs : List (Cstr V K)) (objs : List (K × V))
    (bins ints : List V) (dxl dxu dbl dbu : K) (M : Mats V K) (is bs : List V)
    (h : lp big later cs objs bins ints dxl dxu dbl dbu = some (M, is, bs)) :
    (∀ v, v ∉ is) ∧ ∀ v ∈ ints, v ∈ bs := by
  obtain ⟨-, -, -, -, -, h6, h7, -⟩ := lp_spec _ _ _ _ _ _ _ _ _ _ _ _ _ h
  exact ⟨by simp [h6], fun v hv => (h7 v).2 (Or.inr hv)⟩

example : (lp (1000 : ℚ) true exCs [(1, 0)] [] [1] 0 1000 (-1000) 1000).any (fun r => decide (
    r.2.1 = [] ∧ r.2.2 = [1])) = true := by decide +kernel

/-- C155 fails: the default upper bound of variables is not used.  With a default of 5, a point with a
variable at 7 is feasible for the solver: -x + y ≤ 4 and x = 7, y = 7. -/
theorem C155_default_upper_violates (later : Bool) : ∃ (cs : List (Cstr Nat ℚ)) (M : Mats Nat ℚ) (y : Nat → ℚ),
    lp 1000 later cs [] [] [] 0 5 (-1000) 1000 = some (M, [], []) ∧ M.Feasible y ∧
    ¬ Sat cs [] 0 5 (fun v => y (M.vars.idxOf v)) := by
  refine ⟨[⟨.le, [(-1, 0), (1, 1)], 4⟩], _, fun _ => 7, by cases later <;> rfl, ?_, ?_⟩
  · unfold Mats.Feasible Crs.row
    cases later <;> decide +kernel
  · rintro ⟨-, h⟩
    have := (h 0 (Or.inl ⟨_, List.mem_cons_self, _, List.mem_cons_self, rfl⟩)).2 (by
      rintro ⟨c, hc, ho, -⟩
      simp only [List.mem_cons, List.not_mem_nil, or_false] at hc
      subst hc
      have := ho.2 (1, 1) (by simp)
      simp at this)
    norm_num at this

/-- C155 fails: a program of constraints that each name one variable is refused, whatever they say. -/
theorem C155_bounds_only_violates (big : K) (later : Bool) (cs : List (Cstr V K)) (objs : List (K × V))
    (bins ints : List V) (dxl dxu dbl dbu : K) (h : ∀ c ∈ cs, ∃ v, c.Only v) :
    lp big later cs objs bins ints dxl dxu dbl dbu = none := by
  cases hl : lp big later cs objs bins ints dxl dxu dbl dbu with
  | none => rfl
  | some r =>
      exfalso
      simp only [lp, Option.bind_eq_some_iff] at hl
      obtain ⟨oe, ho, M, hM, -⟩ := hl
      obtain ⟨oe0, hi, ec, -⟩ := optexp_spec _ _ _ _ _ _ _ _ _ _ _ ho
      simp only [matrices] at hM
      have : oe.cons.filter (fun c => !isBound c) = [] := by
        rw [List.filter_eq_nil_iff]
        intro nc hnc
        rw [ec] at hnc
        obtain ⟨c, hc, hct⟩ := hi.from_ nc hnc
        obtain ⟨v, hv⟩ := h c hc
        have := (isBound_iff nc).2 ⟨v, _, hct.trans (norm_only c v hv)⟩
        simp [this]
      rw [this] at hM
      simp at hM

/-- x ≤ 3 is such a program, and has solutions. -/
example : ∃ x : Nat → ℚ, Sat [⟨.le, [(1, 0)], 3⟩] [(1, 0)] 0 1000 x :=
  ⟨fun _ => 1, by
    refine ⟨?_, fun v _ => ⟨fun _ => by norm_num, fun _ => by norm_num⟩⟩
    intro c hc
    simp only [List.mem_cons, List.not_mem_nil, or_false] at hc
    subst hc; simp [Cstr.Holds, lin]⟩

/-- C155 fails: two bounds of a variable with different factors are refused (x ≤ 3, 2x ≤ 4, x + y ≤ 9). -/
theorem C155_two_bounds_violates (later : Bool) : ∃ (cs : List (Cstr Nat ℚ)) (x : Nat → ℚ),
    Sat cs [] 0 1000 x ∧ lp 1000 later cs [] [] [] 0 1000 (-1000) 1000 = none := by
  refine ⟨[⟨.le, [(1, 0)], 3⟩, ⟨.le, [(2, 0)], 4⟩, ⟨.le, [(1, 0), (1, 1)], 9⟩], fun _ => 1, ?_, by
    cases later <;> rfl⟩
  refine ⟨?_, fun v _ => ⟨fun _ => by norm_num, fun _ => by norm_num⟩⟩
  intro c hc
  simp only [List.mem_cons, List.not_mem_nil, or_false] at hc
  rcases hc with rfl | rfl | rfl <;> simp [Cstr.Holds, lin] <;> norm_num

/-- C155 fails: an equation is refused when an inequality on the same sum came before (x + y ≥ 1,
x + y = 2), and accepted in the other order. -/
theorem C155_equation_order_violates (later : Bool) : ∃ (a b : Cstr Nat ℚ) (x : Nat → ℚ),
    Sat [a, b] [] 0 1000 x ∧ lp 1000 later [a, b] [] [] [] 0 1000 (-1000) 1000 = none ∧
    ∃ r, lp 1000 later [b, a] [] [] [] 0 1000 (-1000) 1000 = some r := by
  refine ⟨⟨.ge, [(1, 0), (1, 1)], 1⟩, ⟨.eq, [(1, 0), (1, 1)], 2⟩, fun _ => 1, ?_, by cases later <;> rfl, ?_⟩
  · refine ⟨?_, fun v _ => ⟨fun _ => by norm_num, fun _ => by norm_num⟩⟩
    intro c hc
    simp only [List.mem_cons, List.not_mem_nil, or_false] at hc
    rcases hc with rfl | rfl <;> simp [Cstr.Holds, lin] <;> norm_num
  · cases later <;> exact ⟨_, rfl⟩

end Verif.OptExp
