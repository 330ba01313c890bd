import Verif.Model.Ode
import Mathlib.Tactic.Module
import Mathlib.Tactic.FieldSimp
import Mathlib.Tactic.NormNum
import Mathlib.Tactic.Linarith
import Mathlib.Data.Fin.VecNotation
import Mathlib.Algebra.BigOperators.Fin
import Mathlib.Algebra.Order.Ring.Rat

/-!
# The order of a Runge-Kutta method: specification

Specification: rooted trees with the Butcher product, elementary weights of a tableau, densities. A method
has order `p` when the weighted sum of the elementary weights of every tree with at most `p` nodes is the
reciprocal of its density, and every node `c i` is the sum of its row.
-/

namespace Verif.Ode
open Finset

/-- Rooted trees: one node, or the tree `t` with the tree `u` attached to its root. -/
inductive Tree | dot | graft (t u : Tree)
deriving DecidableEq

namespace Tree

/-- the number of nodes. -/
def size : Tree → Nat
  | dot => 1
  | graft t u => t.size + u.size

/-- the density: for a tree with branches `t₁ … tₘ`, its size times the product of their densities. -/
def density : Tree → ℚ
  | dot => 1
  | graft t u => (t.size + u.size) * (t.density / t.size) * u.density

/-- the elementary weights for the coefficients `a`. -/
def weight {s : Nat} (a : Fin s → Fin s → ℚ) : Tree → Fin s → ℚ
  | dot => fun _ => 1
  | graft t u => fun i => t.weight a i * ∑ j, a i j * u.weight a j

theorem size_pos (t : Tree) : 0 < t.size := by
  induction t with
  | dot => simp [size]
  | graft t u h1 h2 => simp only [size]; omega

/-- all trees with at most `p` nodes and depth of grafting at most `k`. -/
def enum (p : Nat) : Nat → List Tree
  | 0 => []
  | k + 1 => dot :: ((enum p k).flatMap fun t => (enum p k).filterMap fun u =>
      if t.size + u.size ≤ p then some (graft t u) else none)

theorem mem_enum (p k : Nat) (t : Tree) (h : t.size ≤ p) (hk : t.size ≤ k) : t ∈ enum p k := by
  induction t generalizing k with
  | dot =>
    cases k with
    | zero => simp [size] at hk
    | succ k => simp [enum]
  | graft t u h1 h2 =>
    have p1 := size_pos t
    have p2 := size_pos u
    simp only [size] at h hk
    cases k with
    | zero => omega
    | succ k =>
      rw [enum, List.mem_cons, List.mem_flatMap]
      right
      refine ⟨t, h1 k (by omega) (by omega), ?_⟩
      rw [List.mem_filterMap]
      exact ⟨u, h2 k (by omega) (by omega), by rw [if_pos h]⟩

end Tree

/-- A tableau: coefficients and nodes. -/
structure Tableau (s : Nat) where
  a : Fin s → Fin s → ℚ
  c : Fin s → ℚ

/-- the weights `b` give a method of order `p`. -/
def Order {s : Nat} (T : Tableau s) (b : Fin s → ℚ) (p : Nat) : Prop :=
  (∀ i, T.c i = ∑ j, T.a i j) ∧ ∀ t : Tree, t.size ≤ p → ∑ i, b i * t.weight T.a i = 1 / t.density

theorem order_of_enum {s : Nat} (T : Tableau s) (b : Fin s → ℚ) (p : Nat) (hc : ∀ i, T.c i = ∑ j, T.a i j)
    (h : ∀ t ∈ Tree.enum p p, ∑ i, b i * t.weight T.a i = 1 / t.density) : Order T b p :=
  ⟨hc, fun t ht => h t (Tree.mem_enum p p t ht ht)⟩

variable {E : Type} [AddCommGroup E] [Module ℝ E]

/-- `x1` is the result of the explicit Runge-Kutta step with tableau `T` and weights `b`. -/
def IsStep {s : Nat} (T : Tableau s) (b : Fin s → ℚ) (f : ℝ → E → E) (t0 dt : ℝ) (x0 x1 : E) : Prop :=
  ∃ k : Fin s → E,
    (∀ i, k i = f (t0 + dt * (T.c i : ℝ)) (x0 + dt • ∑ j, (T.a i j : ℝ) • k j)) ∧
    x1 = x0 + dt • ∑ i, (b i : ℝ) • k i

/-! ## The published tableaux (the comments at src/sigsys.c:190-195, 224-232, 317-329, 385-398, 452-466, 529-538) -/

def T1 : Tableau 1 := ⟨![![0]], ![0]⟩
def b1 : Fin 1 → ℚ := ![1]
def T2 : Tableau 2 := ⟨![![0, 0], ![1, 0]], ![0, 1]⟩
def b2 : Fin 2 → ℚ := ![1 / 2, 1 / 2]
def T4 : Tableau 4 := ⟨![![0, 0, 0, 0], ![1 / 2, 0, 0, 0], ![0, 1 / 2, 0, 0], ![0, 0, 1, 0]], ![0, 1 / 2, 1 / 2, 1]⟩
def b4 : Fin 4 → ℚ := ![1 / 6, 1 / 3, 1 / 3, 1 / 6]

def TF : Tableau 6 :=
  ⟨![![0, 0, 0, 0, 0, 0],
     ![1 / 4, 0, 0, 0, 0, 0],
     ![3 / 32, 9 / 32, 0, 0, 0, 0],
     ![1932 / 2197, -7200 / 2197, 7296 / 2197, 0, 0, 0],
     ![439 / 216, -8, 3680 / 513, -845 / 4104, 0, 0],
     ![-8 / 27, 2, -3544 / 2565, 1859 / 4104, -11 / 40, 0]], ![0, 1 / 4, 3 / 8, 12 / 13, 1, 1 / 2]⟩
def bF4 : Fin 6 → ℚ := ![25 / 216, 0, 1408 / 2565, 2197 / 4104, -1 / 5, 0]
def bF5 : Fin 6 → ℚ := ![16 / 135, 0, 6656 / 12825, 28561 / 56430, -9 / 50, 2 / 55]

def TCK : Tableau 6 :=
  ⟨![![0, 0, 0, 0, 0, 0],
     ![1 / 5, 0, 0, 0, 0, 0],
     ![3 / 40, 9 / 40, 0, 0, 0, 0],
     ![3 / 10, -9 / 10, 6 / 5, 0, 0, 0],
     ![-11 / 54, 5 / 2, -70 / 27, 35 / 27, 0, 0],
     ![1631 / 55296, 175 / 512, 575 / 13824, 44275 / 110592, 253 / 4096, 0]], ![0, 1 / 5, 3 / 10, 3 / 5, 1, 7 / 8]⟩
def bCK5 : Fin 6 → ℚ := ![37 / 378, 0, 250 / 621, 125 / 594, 0, 512 / 1771]
def bCK4 : Fin 6 → ℚ := ![2825 / 27648, 0, 18575 / 48384, 13525 / 55296, 277 / 14336, 1 / 4]
/-- the weights the code applies (src/sigsys.c:443): the last two are exchanged. -/
def bCKc : Fin 6 → ℚ := ![2825 / 27648, 0, 18575 / 48384, 13525 / 55296, 1 / 4, 277 / 14336]

def TDP : Tableau 7 :=
  ⟨![![0, 0, 0, 0, 0, 0, 0],
     ![1 / 5, 0, 0, 0, 0, 0, 0],
     ![3 / 40, 9 / 40, 0, 0, 0, 0, 0],
     ![44 / 45, -56 / 15, 32 / 9, 0, 0, 0, 0],
     ![19372 / 6561, -25360 / 2187, 64448 / 6561, -212 / 729, 0, 0, 0],
     ![9017 / 3168, -355 / 33, 46732 / 5247, 49 / 176, -5103 / 18656, 0, 0],
     ![35 / 384, 0, 500 / 1113, 125 / 192, -2187 / 6784, 11 / 84, 0]], ![0, 1 / 5, 3 / 10, 4 / 5, 8 / 9, 1, 1]⟩
def bDP5 : Fin 7 → ℚ := ![35 / 384, 0, 500 / 1113, 125 / 192, -2187 / 6784, 11 / 84, 0]
def bDP4 : Fin 7 → ℚ := ![5179 / 57600, 0, 7571 / 16695, 393 / 640, -92097 / 339200, 187 / 2100, 1 / 40]

def TBS : Tableau 4 := ⟨![![0, 0, 0, 0], ![1 / 2, 0, 0, 0], ![0, 3 / 4, 0, 0], ![2 / 9, 1 / 3, 4 / 9, 0]], ![0, 1 / 2, 3 / 4, 1]⟩
def bBS3 : Fin 4 → ℚ := ![2 / 9, 1 / 3, 4 / 9, 0]
def bBS2 : Fin 4 → ℚ := ![7 / 24, 1 / 4, 1 / 3, 1 / 8]

end Verif.Ode
