import Verif.Model.Qp
import Verif.Proof.Mat
import Mathlib.LinearAlgebra.Matrix.DotProduct
import Mathlib.Algebra.BigOperators.Fin
import Mathlib.Tactic.Linarith
import Mathlib.Tactic.Ring
import Mathlib.Tactic.NormNum
import Mathlib.Tactic.IntervalCases

/-!
# C152: what the quadratic program solver returns
-/

namespace Verif.Qp

open Mat Matrix Finset

/-! ## Specification -/

/-- The problem of a user: minimize `c0 + c·x + xᵀ D x` subject to `A x (rel) b` and bounds. -/
structure Problem (m n : Nat) where
  rel : Rel
  A : Matrix (Fin m) (Fin n) ℝ
  b : Fin m → ℝ
  c : Fin n → ℝ
  c0 : ℝ
  D : Matrix (Fin n) (Fin n) ℝ
  lo : Option (Fin n → ℝ)
  hi : Option (Fin n → ℝ)

namespace Problem

variable {m n : Nat}

def cost (q : Problem m n) (x : Fin n → ℝ) : ℝ := q.c0 + q.c ⬝ᵥ x + x ⬝ᵥ q.D *ᵥ x

def relates (q : Problem m n) (x : Fin n → ℝ) : Prop :=
  match q.rel with
  | .eq => q.A *ᵥ x = q.b
  | .leq => q.A *ᵥ x ≤ q.b
  | .geq => q.b ≤ q.A *ᵥ x
  | .other _ => False

def feasible (q : Problem m n) (x : Fin n → ℝ) : Prop :=
  q.relates x ∧ (∀ l ∈ q.lo, l ≤ x) ∧ (∀ u ∈ q.hi, x ≤ u)

/-- `x` solves the problem. -/
def solves (q : Problem m n) (x : Fin n → ℝ) : Prop :=
  q.feasible x ∧ ∀ y, q.feasible y → q.cost x ≤ q.cost y

def convex (q : Problem m n) : Prop := ∀ x, 0 ≤ x ⬝ᵥ q.D *ᵥ x

end Problem

/-- the problem in the arguments of a call: matrices stored by columns. -/
def asked (type : Rel) (m n A ldA b c : Nat) (c0 : ℝ) (D ldD : Nat) (l u : Option Nat) (w : Mem ℝ) : Problem m n where
  rel := type
  A := fun i j => w (A + j * ldA + i)
  b := fun i => w (b + i)
  c := fun j => w (c + j)
  c0 := c0
  D := fun i j => w (D + j * ldD + i)
  lo := l.map fun l j => w (l + j)
  hi := u.map fun u j => w (u + j)

/-! ### CGAL as documented -/

/-- entries of twice the quadratic part. -/
def Program.twoD (p : Program) (i j : Nat) : ℝ := if j ≤ i then p.d i j else p.d j i

noncomputable def Program.quad (p : Program) (x : Nat → ℝ) : ℝ :=
  ∑ i ∈ range p.n, ∑ j ∈ range p.n, p.twoD i j * x i * x j

noncomputable def Program.cost (p : Program) (x : Nat → ℝ) : ℝ :=
  p.c0 + ∑ j ∈ range p.n, p.c j * x j + p.quad x / 2

noncomputable def Program.feasible (p : Program) (x : Nat → ℝ) : Prop :=
  (∀ i < p.m, match p.r with
    | .equal => ∑ j ∈ range p.n, p.a j i * x j = p.b i
    | .smaller => ∑ j ∈ range p.n, p.a j i * x j ≤ p.b i) ∧
  (∀ j < p.n, p.fl j = true → p.l j ≤ x j) ∧ (∀ j < p.n, p.fu j = true → x j ≤ p.u j)

/-- What CGAL documents: if the quadratic part is positive semidefinite, the solution has a value for every variable
and a valid certificate of its status, be it optimal, infeasible or unbounded. -/
structure Documented (p : Program) (s : Solution) : Prop where
  certified : (∀ x, 0 ≤ p.quad x) → s.certified = true
  length : (∀ x, 0 ≤ p.quad x) → s.x.length = p.n
  optimal : (∀ x, 0 ≤ p.quad x) → s.status = .optimal →
    p.feasible (fun j => s.x.getD j 0) ∧ ∀ y, p.feasible y → p.cost (fun j => s.x.getD j 0) ≤ p.cost y
  infeasible : (∀ x, 0 ≤ p.quad x) → s.status = .infeasible → ∀ y, ¬ p.feasible y
  unbounded : (∀ x, 0 ≤ p.quad x) → s.status = .unbounded → ∀ k, ∃ y, p.feasible y ∧ p.cost y < k

/-! ## The program that is built -/

theorem rowA (n i : Nat) (f : Nat → ℝ) (p : Program) :
    forN n (fun j p => p.setA j i (f j)) p =
      { p with n := max p.n n, m := if n = 0 then p.m else max p.m (i + 1),
               a := fun j' i' => if j' < n ∧ i' = i then f j' else p.a j' i' } := by
  induction n with
  | zero => simp [forN]
  | succ n ih =>
    rw [forN_snoc, ih]
    simp only [Program.setA, Program.mk.injEq, true_and, and_true]
    refine ⟨by omega, ?_, ?_⟩
    · rw [if_neg (Nat.succ_ne_zero n)]; split_ifs <;> omega
    · funext j' i'
      grind

theorem allA (m n : Nat) (f : Nat → Nat → ℝ) (p : Program) :
    ∃ m', m' ≤ max p.m m ∧ forN m (fun i p => forN n (fun j p => p.setA j i (f i j)) p) p =
      { p with n := if m = 0 then p.n else max p.n n, m := m',
               a := fun j' i' => if j' < n ∧ i' < m then f i' j' else p.a j' i' } := by
  induction m with
  | zero => exact ⟨p.m, by omega, by simp [forN]⟩
  | succ m ih =>
    obtain ⟨m', h, e⟩ := ih
    rw [forN_snoc, e, rowA]
    refine ⟨if n = 0 then m' else max m' (m + 1), by split_ifs <;> omega, ?_⟩
    simp only [Program.mk.injEq, true_and, and_true]
    refine ⟨by grind, ?_⟩
    funext j' i'
    grind

theorem allB (m : Nat) (f : Nat → ℝ) (p : Program) :
    forN m (fun i p => p.setB i (f i)) p =
      { p with m := max p.m m, b := fun i' => if i' < m then f i' else p.b i' } := by
  induction m with
  | zero => simp [forN]
  | succ m ih =>
    rw [forN_snoc, ih]
    simp only [Program.setB, Program.mk.injEq, true_and, and_true]
    refine ⟨by omega, ?_⟩
    funext i'
    grind

theorem allC (n : Nat) (f : Nat → ℝ) (p : Program) :
    forN n (fun j p => p.setC j (f j)) p =
      { p with n := max p.n n, c := fun j' => if j' < n then f j' else p.c j' } := by
  induction n with
  | zero => simp [forN]
  | succ m ih =>
    rw [forN_snoc, ih]
    simp only [Program.setC, Program.mk.injEq, true_and, and_true]
    refine ⟨by omega, ?_⟩
    funext i'
    grind

theorem rowD (n i : Nat) (f : Nat → ℝ) (p : Program) :
    forN n (fun j p => p.setD i i (f j)) p =
      { p with n := if n = 0 then p.n else max p.n (i + 1),
               d := fun i' j' => if n ≠ 0 ∧ i' = i ∧ j' = i then f (n - 1) else p.d i' j' } := by
  induction n with
  | zero => simp [forN]
  | succ n ih =>
    rw [forN_snoc, ih]
    simp only [Program.setD, Program.mk.injEq, true_and, and_true]
    refine ⟨?_, ?_⟩
    · rw [if_neg (Nat.succ_ne_zero n)]; split_ifs <;> omega
    · funext j' i'
      grind

theorem allD (k n : Nat) (f : Nat → Nat → ℝ) (p : Program) (hk : k ≤ n) (hn : n ≤ p.n) :
    forN k (fun i p => forN n (fun j p => p.setD i i (f i j)) p) p =
      { p with d := fun i' j' => if i' < k ∧ j' = i' then f i' (n - 1) else p.d i' j' } := by
  induction k with
  | zero => simp [forN]
  | succ k ih =>
    rw [forN_snoc, ih (by omega), rowD]
    simp only [Program.mk.injEq, true_and, and_true]
    refine ⟨by grind, ?_⟩
    funext j' i'
    grind

theorem allLU (k : Nat) (l u : Option Nat) (w : Mem ℝ) (p : Program) (hk : k ≤ p.n) :
    forN k (fun j p => lineU u w j (lineL l w j p)) p =
      { p with fl := fun j => if j < k ∧ l.isSome then true else p.fl j,
               l := fun j => if j < k ∧ l.isSome then w (l.getD 0 + j) else p.l j,
               fu := fun j => if j < k ∧ u.isSome then true else p.fu j,
               u := fun j => if j < k ∧ u.isSome then w (u.getD 0 + j) else p.u j } := by
  induction k with
  | zero => simp [forN]
  | succ k ih =>
    rw [forN_snoc, ih (by omega)]
    cases l <;> cases u <;>
      simp only [lineL, lineU, Program.setL, Program.setU, Option.isSome_some, Option.isSome_none, Option.getD_some,
        Option.getD_none, and_true, Bool.false_eq_true, and_false, if_false, Program.mk.injEq, true_and] <;>
      first
      | rfl
      | (refine ⟨by omega, ?_, ?_⟩ <;> funext j <;> grind)
      | (refine ⟨by omega, ?_, ?_, ?_, ?_⟩ <;> funext j <;> grind)

/-- The program that reaches CGAL, for all arguments. -/
theorem build_eq (r : Cmp) (m n A ldA b c : Nat) (c0 : ℝ) (D ldD : Nat) (l u : Option Nat) (w : Mem ℝ) :
    build r m n A ldA b c c0 D ldD l u w =
      { n := n, m := m, r := r,
        a := fun j i => if j < n ∧ i < m then w (A + j * ldA + i) else 0,
        b := fun i => if i < m then w (b + i) else 0,
        c := fun j => if j < n then w (c + j) else 0, c0 := c0,
        d := fun i j => if i < n ∧ j = i then 2 * w (D + (n - 1) * ldD + i) else 0,
        fl := fun _ => l.isSome, fu := fun _ => u.isSome,
        l := fun j => if j < n ∧ l.isSome then w (l.getD 0 + j) else 0,
        u := fun j => if j < n ∧ u.isSome then w (u.getD 0 + j) else 1 } := by
  unfold build
  obtain ⟨m', h, e⟩ := allA m n (fun i j => w (A + j * ldA + i)) (Program.new r l.isSome 0 u.isSome 1)
  have hm : max m' m = m := by simp [Program.new] at h; omega
  simp only [e, allB, allC, hm]
  have hn : max (if m = 0 then (Program.new r l.isSome 0 u.isSome 1).n
      else max (Program.new r l.isSome 0 u.isSome 1).n n) n = n := by
    simp [Program.new]; split_ifs <;> omega
  rw [allD n n _ _ le_rfl (by simp), allLU n l u w _ (by simp)]
  simp only [Program.new, Program.mk.injEq, true_and, and_true]
  exact ⟨by simpa [Program.new] using hn, by funext j; grind, by funext j; grind⟩

/-- `xᵀ D x` by indices. -/
noncomputable def form (n : Nat) (D : Nat → Nat → ℝ) (x : Nat → ℝ) : ℝ :=
  ∑ i ∈ range n, ∑ j ∈ range n, D i j * x i * x j

theorem quad_build (r : Cmp) (m n A ldA b c : Nat) (c0 : ℝ) (D ldD : Nat) (l u : Option Nat) (w : Mem ℝ)
    (x : Nat → ℝ) :
    (build r m n A ldA b c c0 D ldD l u w).quad x = 2 * ∑ i ∈ range n, w (D + (n - 1) * ldD + i) * x i * x i := by
  rw [build_eq]
  unfold Program.quad Program.twoD
  simp only
  rw [mul_sum]
  refine sum_congr rfl fun i hi => ?_
  rw [sum_eq_single i]
  · rw [if_pos le_rfl, if_pos ⟨mem_range.1 hi, rfl⟩]; ring
  · intro j hj hne
    split_ifs <;> first | (exfalso; omega) | simp
  · intro h; exact absurd hi h

theorem cost_build (type : Rel) (r : Cmp) (m n A ldA b c : Nat) (c0 : ℝ) (D ldD : Nat) (l u : Option Nat) (w : Mem ℝ)
    (x : Nat → ℝ) :
    (build r m n A ldA b c c0 D ldD l u w).cost x =
      (asked type m n A ldA b c c0 D ldD l u w).cost (fun j => x j) - form n (fun i j => w (D + j * ldD + i)) x +
        ∑ i ∈ range n, w (D + (n - 1) * ldD + i) * x i * x i := by
  unfold Program.cost
  rw [quad_build]
  have h1 : (build r m n A ldA b c c0 D ldD l u w).c0 = c0 := by rw [build_eq]
  have h2 : ∑ j ∈ range (build r m n A ldA b c c0 D ldD l u w).n, (build r m n A ldA b c c0 D ldD l u w).c j * x j
      = ∑ j ∈ range n, w (c + j) * x j := by
    rw [build_eq]
    exact sum_congr rfl fun j hj => by simp only; rw [if_pos (mem_range.1 hj)]
  have h3 : (asked type m n A ldA b c c0 D ldD l u w).cost (fun j => x j) =
      c0 + ∑ j ∈ range n, w (c + j) * x j + form n (fun i j => w (D + j * ldD + i)) x := by
    unfold Problem.cost asked form
    simp only [dotProduct, mulVec, Finset.sum_range, Finset.mul_sum]
    congr 1
    exact sum_congr rfl fun i _ => sum_congr rfl fun j _ => by ring
  rw [h1, h2, h3]; ring

theorem feasible_build {type : Rel} {r : Cmp} (hr : relOf type = some r) (m n A ldA b c : Nat) (c0 : ℝ) (D ldD : Nat)
    (l u : Option Nat) (w : Mem ℝ) (x : Nat → ℝ) :
    (build r m n A ldA b c c0 D ldD l u w).feasible x ↔
      (asked type m n A ldA b c c0 D ldD l u w).feasible (fun j => x j) := by
  rw [build_eq]
  unfold Program.feasible Problem.feasible
  refine and_congr ?_ (and_congr ?_ ?_)
  · have key : ∀ i < m, ∑ j ∈ range n, (if j < n ∧ i < m then w (A + j * ldA + i) else 0) * x j
        = ∑ j : Fin n, w (A + j * ldA + i) * x j := by
      intro i hi
      rw [Finset.sum_range]
      exact sum_congr rfl fun j _ => by rw [if_pos ⟨j.2, hi⟩]
    cases type <;> simp only [relOf, Option.some.injEq, reduceCtorEq] at hr <;> subst hr <;>
      simp only [asked, Problem.relates]
    · constructor
      · intro h; funext i
        have := h i i.2
        rw [key i i.2, if_pos i.2] at this
        exact this
      · intro h i hi
        rw [key i hi, if_pos hi]
        exact congrFun h ⟨i, hi⟩
    · constructor
      · intro h i
        have := h i i.2
        rw [key i i.2, if_pos i.2] at this
        exact this
      · intro h i hi
        rw [key i hi, if_pos hi]
        exact h ⟨i, hi⟩
  · cases l with
    | none => simp [asked]
    | some l =>
      simp only [asked, Option.isSome_some, Option.getD_some, and_true, forall_const, Option.map_some,
        Option.mem_some_iff, forall_eq']
      exact ⟨fun h j => by have := h j j.2; rwa [if_pos j.2] at this,
        fun h j hj => by rw [if_pos hj]; exact h ⟨j, hj⟩⟩
  · cases u with
    | none => simp [asked]
    | some u =>
      simp only [asked, Option.isSome_some, Option.getD_some, and_true, forall_const, Option.map_some,
        Option.mem_some_iff, forall_eq']
      exact ⟨fun h j => by have := h j j.2; rwa [if_pos j.2] at this,
        fun h j hj => by rw [if_pos hj]; exact h ⟨j, hj⟩⟩

/-- Quadratic forms agree with one of a diagonal matrix. -/
theorem form_diag (n : Nat) (D : Nat → Nat → ℝ) (e : Nat → ℝ) :
    (∀ x, form n D x = ∑ i ∈ range n, e i * x i * x i) ↔
      (∀ i < n, D i i = e i) ∧ ∀ i < n, ∀ j < n, i ≠ j → D i j + D j i = 0 := by
  constructor
  · intro h
    have h1 : ∀ i < n, D i i = e i := by
      intro i hi
      have := h (fun k => if k = i then 1 else 0)
      simpa [form, hi] using this
    refine ⟨h1, fun i hi j hj hne => ?_⟩
    have := h (fun k => (if k = i then 1 else 0) + (if k = j then 1 else 0))
    simp [form, mul_add, sum_add_distrib, hi, hj, hne, hne.symm] at this
    have a := h1 i hi
    have b := h1 j hj
    linarith
  · rintro ⟨h1, h2⟩ x
    have e1 : form n D x = ∑ i ∈ range n, ∑ j ∈ range n, D j i * x i * x j := by
      unfold form
      rw [sum_comm]
      exact sum_congr rfl fun i _ => sum_congr rfl fun j _ => by ring
    have e2 : form n D x + form n D x = ∑ i ∈ range n, (2 * (e i * x i * x i)) := by
      nth_rw 2 [e1]
      unfold form
      rw [← sum_add_distrib]
      refine sum_congr rfl fun i hi => ?_
      rw [← sum_add_distrib, sum_eq_single i]
      · rw [h1 i (mem_range.1 hi)]; ring
      · intro j hj hne
        have := h2 i (mem_range.1 hi) j (mem_range.1 hj) (Ne.symm hne)
        rw [← add_mul, ← add_mul, this]; ring
      · intro h; exact absurd hi h
    rw [← mul_sum] at e2
    linarith

theorem put_at (x : Nat) (v : List ℝ) (w : Mem ℝ) (k : Nat) :
    put x v w k = if x ≤ k ∧ k < x + v.length then v.getD (k - x) 0 else w k := by
  unfold put
  suffices h : ∀ n, forN n (fun j w => store w (x + j) (v.getD j 0)) w k =
      if x ≤ k ∧ k < x + n then v.getD (k - x) 0 else w k from h _
  intro n
  induction n with
  | zero => rw [if_neg (by omega)]; rfl
  | succ n ih =>
    rw [forN_snoc]
    unfold store
    by_cases h : k = x + n
    · subst h; rw [if_pos rfl, if_pos (by omega)]; congr 1; omega
    · rw [if_neg h]
      refine ih.trans ?_
      by_cases h' : x ≤ k ∧ k < x + n
      · rw [if_pos h', if_pos (by omega)]
      · rw [if_neg h', if_neg (by omega)]

/-! ## C152 -/

/-- The constraints reach CGAL, for all arguments; the cost does so exactly if the symmetric part of `D` is diagonal
and equal to the last column of `D`. -/
theorem C152_handed {type : Rel} {r : Cmp} (hr : relOf type = some r) (m n A ldA b c : Nat) (c0 : ℝ) (D ldD : Nat)
    (l u : Option Nat) (w : Mem ℝ) :
    (∀ x : Nat → ℝ, (build r m n A ldA b c c0 D ldD l u w).feasible x ↔
      (asked type m n A ldA b c c0 D ldD l u w).feasible (fun j => x j)) ∧
    ((∀ x : Nat → ℝ, (build r m n A ldA b c c0 D ldD l u w).cost x =
        (asked type m n A ldA b c c0 D ldD l u w).cost (fun j => x j)) ↔
      (∀ i < n, w (D + i * ldD + i) = w (D + (n - 1) * ldD + i)) ∧
      ∀ i < n, ∀ j < n, i ≠ j → w (D + j * ldD + i) + w (D + i * ldD + j) = 0) := by
  refine ⟨feasible_build hr m n A ldA b c c0 D ldD l u w, ?_⟩
  rw [← form_diag n (fun i j => w (D + j * ldD + i)) (fun i => w (D + (n - 1) * ldD + i))]
  refine forall_congr' fun x => ?_
  rw [cost_build type]
  constructor <;> intro h <;> linarith

/-- For such `D`, a convex problem with equalities or upper bounds that has a solution is solved: the result is 0,
the first `n` elements of `x` solve it, and nothing else is written. -/
theorem C152_solve_partial {type : Rel} {r : Cmp} (hr : relOf type = some r) (m n A ldA b c : Nat) (c0 : ℝ)
    (D ldD : Nat) (l u : Option Nat) (x : Nat) (w : Mem ℝ) (solve : Program → Solution)
    (hdoc : Documented (build r m n A ldA b c c0 D ldD l u w) (solve (build r m n A ldA b c c0 D ldD l u w)))
    (hD : (∀ i < n, w (D + i * ldD + i) = w (D + (n - 1) * ldD + i)) ∧
      ∀ i < n, ∀ j < n, i ≠ j → w (D + j * ldD + i) + w (D + i * ldD + j) = 0)
    (hc : (asked type m n A ldA b c c0 D ldD l u w).convex)
    (hs : ∃ y, (asked type m n A ldA b c c0 D ldD l u w).solves y) :
    ∃ w', solveCgal solve type m n A ldA b c c0 D ldD l u x w = (0, w') ∧
      (asked type m n A ldA b c c0 D ldD l u w).solves (fun j => w' (x + j)) ∧
      ∀ k, (k < x ∨ x + n ≤ k) → w' k = w k := by
  set p := build r m n A ldA b c c0 D ldD l u w with hp
  set q := asked type m n A ldA b c c0 D ldD l u w with hq
  obtain ⟨hf, hcost⟩ := C152_handed hr m n A ldA b c c0 D ldD l u w
  have hcost := hcost.2 hD
  rw [← hp, ← hq] at hf hcost
  have hn : p.n = n := by rw [hp, build_eq]
  have hpsd : ∀ y, 0 ≤ p.quad y := by
    intro y
    rw [hp, quad_build, ← (form_diag n (fun i j => w (D + j * ldD + i)) _).2 hD y]
    have := hc (fun j => y j)
    have e : (fun j : Fin n => y j) ⬝ᵥ q.D *ᵥ (fun j : Fin n => y j) = form n (fun i j => w (D + j * ldD + i)) y := by
      unfold form
      simp only [hq, asked, dotProduct, mulVec, Finset.sum_range, Finset.mul_sum]
      exact sum_congr rfl fun i _ => sum_congr rfl fun j _ => by ring
    rw [e] at this
    linarith
  obtain ⟨y, hy, hmin⟩ := hs
  have ext : ∀ z : Fin n → ℝ, ∃ z' : Nat → ℝ, (fun j : Fin n => z' j) = z := fun z =>
    ⟨fun k => if h : k < n then z ⟨k, h⟩ else 0, by funext j; simp⟩
  obtain ⟨y', ey⟩ := ext y
  have fy : p.feasible y' := (hf y').2 (by rw [ey]; exact hy)
  have opt : (solve p).status = .optimal := by
    cases e : (solve p).status with
    | optimal => rfl
    | infeasible => exact absurd fy (hdoc.infeasible hpsd e y')
    | unbounded =>
      obtain ⟨z, hz, hlt⟩ := hdoc.unbounded hpsd e (q.cost y)
      rw [hcost] at hlt
      exact absurd (hmin _ ((hf z).1 hz)) (not_le.2 hlt)
  obtain ⟨o1, o2⟩ := hdoc.optimal hpsd opt
  refine ⟨put x (solve p).x w, ?_, ?_, ?_⟩
  · unfold solveCgal
    rw [hr]
    simp only [← hp]
    rw [if_pos (hdoc.certified hpsd)]
  · have e : (fun j : Fin n => put x (solve p).x w (x + j)) = fun j : Fin n => (solve p).x.getD j 0 := by
      funext j
      have := j.2
      rw [put_at, if_pos ⟨by omega, by rw [hdoc.length hpsd, hn]; omega⟩]
      congr 1; omega
    rw [e]
    refine ⟨(hf _).1 o1, fun z hz => ?_⟩
    obtain ⟨z', ez⟩ := ext z
    have := o2 z' ((hf z').2 (by rw [ez]; exact hz))
    rwa [hcost, hcost, ez] at this
  · intro k hk
    rw [put_at, if_neg (by rw [hdoc.length hpsd, hn]; omega)]

/-! ## Violations -/

/-- `D = 1`, `c = (-2, -2)`, bounds 0 and 10. -/
def w1 : Mem ℝ := fun k => [1, 0, 0, 1, -2, -2, 0, 0, 10, 10].getD k 0

theorem cost1 (x : Nat → ℝ) :
    (build .smaller 0 2 0 1 0 4 0 0 2 (some 6) (some 8) w1).cost x = - 2 * x 0 - 2 * x 1 + x 1 ^ 2 := by
  unfold Program.cost
  rw [quad_build, build_eq]
  norm_num [Finset.sum_range_succ, w1]
  ring

theorem feas1 (x : Nat → ℝ) :
    (build .smaller 0 2 0 1 0 4 0 0 2 (some 6) (some 8) w1).feasible x ↔
      (0 ≤ x 0 ∧ 0 ≤ x 1) ∧ x 0 ≤ 10 ∧ x 1 ≤ 10 := by
  rw [build_eq]
  simp only [Program.feasible, Nat.not_lt_zero, IsEmpty.forall_iff, implies_true, true_and, Option.isSome_some,
    forall_const, and_true, Option.getD_some]
  constructor
  · rintro ⟨h1, h2⟩
    have a := h1 0 (by norm_num); have b := h1 1 (by norm_num)
    have c := h2 0 (by norm_num); have d := h2 1 (by norm_num)
    norm_num [w1] at a b c d
    exact ⟨⟨a, b⟩, c, d⟩
  · rintro ⟨⟨a, b⟩, c, d⟩
    refine ⟨fun j hj => ?_, fun j hj => ?_⟩ <;> interval_cases j <;> norm_num [w1] <;> assumption

theorem quad1 (x : Nat → ℝ) :
    0 ≤ (build .smaller 0 2 0 1 0 4 0 0 2 (some 6) (some 8) w1).quad x := by
  rw [quad_build]
  norm_num [Finset.sum_range_succ, w1]
  nlinarith [sq_nonneg (x 1)]

theorem asked1 (x : Fin 2 → ℝ) :
    (asked .leq 0 2 0 1 0 4 0 0 2 (some 6) (some 8) w1).cost x = (x 0 - 1) ^ 2 + (x 1 - 1) ^ 2 - 2 ∧
    ((asked .leq 0 2 0 1 0 4 0 0 2 (some 6) (some 8) w1).feasible x ↔ (0 ≤ x 0 ∧ 0 ≤ x 1) ∧ x 0 ≤ 10 ∧ x 1 ≤ 10) ∧
    0 ≤ x ⬝ᵥ (asked .leq 0 2 0 1 0 4 0 0 2 (some 6) (some 8) w1).D *ᵥ x := by
  refine ⟨?_, ?_, ?_⟩
  · simp only [Problem.cost, asked, dotProduct, mulVec, Fin.sum_univ_two]
    norm_num [w1]; ring
  · simp only [Problem.feasible, Problem.relates, asked, Option.map_some, Option.mem_some_iff, forall_eq', Pi.le_def,
      Fin.forall_fin_two, IsEmpty.forall_iff, true_and]
    norm_num [w1]
  · simp only [asked, dotProduct, mulVec, Fin.sum_univ_two]
    norm_num [w1]; nlinarith [sq_nonneg (x 0), sq_nonneg (x 1)]

/-- The quadratic part is not the one given: for `D = 1` of size 2, however CGAL computes it, the result is 0 and `x`
does not solve the problem. -/
theorem C152_quadratic_violates :
    let q := asked .leq 0 2 0 1 0 4 0 0 2 (some 6) (some 8) w1
    let p := build .smaller 0 2 0 1 0 4 0 0 2 (some 6) (some 8) w1
    q.convex ∧ q.solves ![1, 1] ∧ (∃ s, Documented p s) ∧
    ∀ solve : Program → Solution, Documented p (solve p) →
      ∃ w', solveCgal solve .leq 0 2 0 1 0 4 0 0 2 (some 6) (some 8) 10 w1 = (0, w') ∧ w' 10 = 10 ∧
        ¬ q.solves (fun j => w' (10 + j)) := by
  intro q p
  have hmin : ∀ x : Nat → ℝ, p.feasible x → -21 ≤ p.cost x := by
    intro x hx
    have := (feas1 x).1 hx
    rw [cost1]; nlinarith [sq_nonneg (x 1 - 1)]
  have h0 : p.feasible (fun k => if k = 0 then 10 else 1) ∧ p.cost (fun k => if k = 0 then 10 else 1) = -21 :=
    ⟨(feas1 _).2 (by norm_num), by rw [cost1]; norm_num⟩
  have hn : p.n = 2 := by show (build ..).n = 2; rw [build_eq]
  refine ⟨fun x => (asked1 x).2.2, ⟨(asked1 _).2.1.2 (by simp), fun y _ => ?_⟩, ⟨⟨.optimal, [10, 1], true⟩, ?_⟩, ?_⟩
  · rw [(asked1 _).1, (asked1 _).1]
    simp; nlinarith [sq_nonneg (y 0 - 1), sq_nonneg (y 1 - 1)]
  · refine ⟨fun _ => rfl, fun _ => by rw [hn]; rfl, fun _ _ => ⟨(feas1 _).2 (by simp), fun y hy => ?_⟩, ?_, ?_⟩
    · refine le_trans (le_of_eq ?_) (hmin y hy)
      rw [cost1]; simp; norm_num
    · intro _ h; cases h
    · intro _ h; cases h
  · intro solve hd
    have opt : (solve p).status = .optimal := by
      cases e : (solve p).status with
      | optimal => rfl
      | infeasible => exact absurd h0.1 (hd.infeasible quad1 e _)
      | unbounded =>
        obtain ⟨z, hz, hlt⟩ := hd.unbounded quad1 e (-21)
        exact absurd (hmin z hz) (not_le.2 hlt)
    obtain ⟨o1, o2⟩ := hd.optimal quad1 opt
    have hle := o2 _ h0.1
    rw [h0.2, cost1] at hle
    have hf := (feas1 _).1 o1
    have x0 : (solve p).x.getD 0 0 = 10 := by
      nlinarith [sq_nonneg ((solve p).x.getD 1 0 - 1)]
    have hw : put 10 (solve p).x w1 10 = 10 := by
      rw [put_at, if_pos ⟨le_rfl, by rw [hd.length quad1, hn]; omega⟩]; exact x0
    refine ⟨put 10 (solve p).x w1, ?_, hw, ?_⟩
    · simp only [solveCgal, relOf]
      rw [if_pos]
      exact hd.certified quad1
    · rintro ⟨_, h2⟩
      have := h2 ![1, 1] ((asked1 _).2.1.2 (by simp))
      rw [(asked1 _).1, (asked1 _).1] at this
      simp only [Fin.val_zero, add_zero, hw] at this
      simp at this
      nlinarith [sq_nonneg (put 10 (solve p).x w1 11 - 1)]

/-- `D = (1, -1; -1, 1)`. -/
def w2 : Mem ℝ := fun k => [1, -1, -1, 1].getD k 0

/-- For a convex problem, CGAL may get a program that is not convex, about which it promises nothing. -/
theorem C152_precondition_violates :
    (asked .leq 0 2 0 1 0 4 0 0 2 none none w2).convex ∧
    ¬ ∀ x, 0 ≤ (build .smaller 0 2 0 1 0 4 0 0 2 none none w2).quad x := by
  constructor
  · intro x
    simp only [asked, dotProduct, mulVec, Fin.sum_univ_two]
    norm_num [w2]; nlinarith [sq_nonneg (x 0 - x 1)]
  · intro h
    have := h (fun k => if k = 0 then 1 else 0)
    rw [quad_build] at this
    norm_num [Finset.sum_range_succ, w2] at this

/-- The result 0 of a call whose program has a positive semidefinite quadratic part, whatever its status is. -/
theorem always {type : Rel} {r : Cmp} (hr : relOf type = some r) (m n A ldA b c : Nat) (c0 : ℝ)
    (D ldD : Nat) (l u : Option Nat) (x : Nat) (w : Mem ℝ) (solve : Program → Solution)
    (hdoc : Documented (build r m n A ldA b c c0 D ldD l u w) (solve (build r m n A ldA b c c0 D ldD l u w)))
    (hq : ∀ y, 0 ≤ (build r m n A ldA b c c0 D ldD l u w).quad y) :
    (solveCgal solve type m n A ldA b c c0 D ldD l u x w).1 = 0 := by
  simp only [solveCgal, hr]
  rw [if_pos (hdoc.certified hq)]

/-- `A = 1`, `b = -1`, `c = 0`, `D = 0`, lower bound 0. -/
def w3 : Mem ℝ := fun k => [1, -1, 0, 0, 0].getD k 0

/-- A problem without a feasible point gives 0, because CGAL certifies that too. -/
theorem C152_infeasible_violates :
    let q := asked .leq 1 1 0 1 1 2 0 3 1 (some 4) none w3
    let p := build .smaller 1 1 0 1 1 2 0 3 1 (some 4) none w3
    q.convex ∧ (∀ x, ¬ q.feasible x) ∧ (∃ s, Documented p s) ∧
    ∀ solve : Program → Solution, Documented p (solve p) →
      (solveCgal solve .leq 1 1 0 1 1 2 0 3 1 (some 4) none 5 w3).1 = 0 := by
  intro q p
  have hq : ∀ y, 0 ≤ p.quad y := by
    intro y
    simp only [p]
    rw [quad_build]; norm_num [w3]
  have hno : ∀ x, ¬ q.feasible x := by
    rintro x ⟨h1, h2, -⟩
    have a := h1 0
    have b := h2 _ rfl 0
    simp only [q, asked, mulVec, dotProduct, Fin.sum_univ_one] at a
    norm_num [w3] at a b
    linarith
  refine ⟨fun x => ?_, hno, ⟨⟨.infeasible, [0], true⟩, ?_⟩, fun solve hd => always rfl _ _ _ _ _ _ _ _ _ _ _ _ _ _ hd hq⟩
  · simp only [q, asked, dotProduct, mulVec, Fin.sum_univ_one]
    norm_num [w3]
  · refine ⟨fun _ => rfl, fun _ => ?_, fun _ h => ?_, fun _ _ y hy => ?_, fun _ h => ?_⟩
    · simp only [p]; rw [build_eq]; rfl
    · cases h
    · exact hno _ ((feasible_build (type := .leq) rfl 1 1 0 1 1 2 0 3 1 (some 4) none w3 y).1 hy)
    · cases h

/-- `c = 1`, `D = 0`. -/
def w4 : Mem ℝ := fun k => [1, 0].getD k 0

/-- A problem whose cost has no lower bound gives 0. -/
theorem C152_unbounded_violates :
    let q := asked .leq 0 1 0 1 0 0 0 1 1 none none w4
    let p := build .smaller 0 1 0 1 0 0 0 1 1 none none w4
    q.convex ∧ (∀ x, ¬ q.solves x) ∧ (∃ s, Documented p s) ∧
    ∀ solve : Program → Solution, Documented p (solve p) →
      (solveCgal solve .leq 0 1 0 1 0 0 0 1 1 none none 2 w4).1 = 0 := by
  intro q p
  have hq : ∀ y, 0 ≤ p.quad y := by
    intro y
    simp only [p]
    rw [quad_build]; norm_num [w4]
  have hcost : ∀ x, q.cost x = x 0 := by
    intro x
    simp only [q, asked, Problem.cost, dotProduct, mulVec, Fin.sum_univ_one]
    norm_num [w4]
  have hall : ∀ x, q.feasible x := fun x =>
    ⟨fun i => i.elim0, fun _ h => absurd h (by simp [q, asked]), fun _ h => absurd h (by simp [q, asked])⟩
  refine ⟨fun x => ?_, ?_, ⟨⟨.unbounded, [0], true⟩, ?_⟩, fun solve hd => always rfl _ _ _ _ _ _ _ _ _ _ _ _ _ _ hd hq⟩
  · simp only [q, asked, dotProduct, mulVec, Fin.sum_univ_one]
    norm_num [w4]
  · rintro x ⟨-, h⟩
    have := h (fun _ => x 0 - 1) (hall _)
    rw [hcost, hcost] at this
    linarith
  · refine ⟨fun _ => rfl, fun _ => ?_, fun _ h => ?_, fun _ h => ?_, fun _ _ k => ⟨fun _ => k - 1, ?_, ?_⟩⟩
    · simp only [p]; rw [build_eq]; rfl
    · cases h
    · cases h
    · exact (feasible_build (type := .leq) rfl 0 1 0 1 0 0 0 1 1 none none w4 _).2 (hall _)
    · have := cost_build .leq .smaller 0 1 0 1 0 0 0 1 1 none none w4 (fun _ => k - 1)
      simp only [p]
      rw [this]
      have e := hcost (fun _ => k - 1)
      simp only [q] at e
      rw [e]
      norm_num [form, w4]

/-- `A = 1`, `b = 0`, `c = 1`, `D = 0`. -/
def w5 : Mem ℝ := fun k => [1, 0, 1, 0].getD k 0

/-- Lower bounds `A x ≥ b`, which the type of the argument offers, are refused although there is a solution. -/
theorem C152_geq_violates (solve : Program → Solution) :
    (asked .geq 1 1 0 1 1 2 0 3 1 none none w5).convex ∧
    (asked .geq 1 1 0 1 1 2 0 3 1 none none w5).solves (fun _ => 0) ∧
    solveCgal solve .geq 1 1 0 1 1 2 0 3 1 none none 4 w5 = (-1, w5) := by
  refine ⟨fun x => ?_, ⟨⟨fun i => ?_, fun _ h => absurd h (by simp [asked]), fun _ h => absurd h (by simp [asked])⟩,
    fun y hy => ?_⟩, rfl⟩
  · simp only [asked, dotProduct, mulVec, Fin.sum_univ_one]
    norm_num [w5]
  · simp only [asked, dotProduct, mulVec, Fin.sum_univ_one]
    norm_num [w5]
  · have := hy.1 0
    simp only [asked, dotProduct, mulVec, Fin.sum_univ_one] at this
    simp only [Problem.cost, asked, dotProduct, mulVec, Fin.sum_univ_one]
    norm_num [w5] at this ⊢
    exact this

/-! ## Examples -/

/-- `D = (0, 0; 0, 1)`, `c = (1, -2)`, lower bounds 0. -/
def w6 : Mem ℝ := fun k => [0, 0, 0, 1, 1, -2, 0, 0].getD k 0

/-- a problem that `C152_solve_partial` covers. -/
example : ((∀ i < 2, w6 (0 + i * 2 + i) = w6 (0 + (2 - 1) * 2 + i)) ∧
      ∀ i < 2, ∀ j < 2, i ≠ j → w6 (0 + j * 2 + i) + w6 (0 + i * 2 + j) = 0) ∧
    (asked .leq 0 2 0 1 0 4 0 0 2 (some 6) none w6).convex ∧
    (asked .leq 0 2 0 1 0 4 0 0 2 (some 6) none w6).solves ![0, 1] := by
  refine ⟨⟨?_, ?_⟩, fun x => ?_, ⟨⟨fun i => i.elim0, ?_, ?_⟩, fun y hy => ?_⟩⟩
  · intro i hi; interval_cases i <;> norm_num [w6]
  · intro i hi j hj hne; interval_cases i <;> interval_cases j <;> first | omega | norm_num [w6]
  · simp only [asked, dotProduct, mulVec, Fin.sum_univ_two]
    norm_num [w6]; nlinarith [sq_nonneg (x 1)]
  · simp only [asked, Option.map_some, Option.mem_some_iff, forall_eq', Pi.le_def, Fin.forall_fin_two]
    norm_num [w6]
  · simp [asked]
  · have := hy.2.1 _ rfl 0
    norm_num [w6] at this
    simp only [Problem.cost, asked, dotProduct, mulVec, Fin.sum_univ_two]
    norm_num [w6]
    nlinarith [sq_nonneg (y 1 - 1)]

end Verif.Qp
