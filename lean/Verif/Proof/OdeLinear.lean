import Verif.Proof.Butcher
import Mathlib.Data.Nat.Factorial.Basic
import Mathlib.LinearAlgebra.Span.Basic

/-!
# Explicit Runge-Kutta steps on linear systems and on quadratures
-/

namespace Verif.Ode
open Finset

section linear

variable {E : Type} [AddCommGroup E] [Module ℝ E]

namespace Tree

/-- the tree in which every node has at most one branch, with `m + 1` nodes. -/
def tall : Nat → Tree
  | 0 => dot
  | m + 1 => graft dot (tall m)

theorem tall_size (m : Nat) : (tall m).size = m + 1 := by
  induction m with
  | zero => rfl
  | succ m ih => simp only [tall, size, ih]; omega

theorem tall_density (m : Nat) : (tall m).density = ((m + 1).factorial : ℚ) := by
  induction m with
  | zero => simp [tall, density]
  | succ m ih =>
    rw [tall, density, ih, tall_size, Nat.factorial_succ (m + 1)]
    simp only [size, density]
    push_cast
    ring

theorem tall_weight {s : Nat} (T : Tableau s) (hT : Explicit T) (m : Nat) (i : Fin s) (h : i.1 < m) :
    (tall m).weight T.a i = 0 := by
  induction m generalizing i with
  | zero => omega
  | succ m ih =>
    simp only [tall, weight, one_mul]
    refine Finset.sum_eq_zero fun j _ => ?_
    rcases lt_or_ge j i with hj | hj
    · rw [ih j (by have : j.1 < i.1 := hj; omega), mul_zero]
    · rw [hT i j hj, zero_mul]

end Tree

open Verif.Ode.Tree in
theorem linear_step {s : Nat} (T : Tableau s) (hT : Explicit T) (b : Fin s → ℚ) (L : E →ₗ[ℝ] E) (v : E) (t0 dt : ℝ)
    (x0 x1 : E) (h : IsStep T b (fun _ x => L x + v) t0 dt x0 x1) :
    x1 = x0 + ∑ m ∈ range s, (dt ^ (m + 1) * (∑ i, b i * (tall m).weight T.a i : ℚ)) • (L ^ m) (L x0 + v) := by
  obtain ⟨k, hk, rfl⟩ := h
  have key : ∀ i, k i = ∑ m ∈ range s, (dt ^ m * ((tall m).weight T.a i : ℚ)) • (L ^ m) (L x0 + v) := by
    intro i
    induction i using WellFoundedLT.induction with
    | ind i ih =>
      have hz : ∀ j, (T.a i j : ℝ) • k j =
          (T.a i j : ℝ) • ∑ m ∈ range s, (dt ^ m * ((tall m).weight T.a j : ℚ)) • (L ^ m) (L x0 + v) := by
        intro j
        rcases lt_or_ge j i with hj | hj
        · rw [← ih j hj]
        · rw [hT i j hj]; simp
      rw [hk i]
      simp only [hz]
      obtain ⟨q, rfl⟩ : ∃ q, s = q + 1 := ⟨s - 1, by have := i.2; omega⟩
      have e : dt • ∑ j, (T.a i j : ℝ) • ∑ m ∈ range (q + 1), (dt ^ m * ((tall m).weight T.a j : ℚ)) • (L ^ m) (L x0 + v) =
          ∑ m ∈ range (q + 1), (dt ^ (m + 1) * ((tall (m + 1)).weight T.a i : ℚ)) • (L ^ m) (L x0 + v) := by
        simp only [Finset.smul_sum]
        rw [Finset.sum_comm]
        refine Finset.sum_congr rfl fun m _ => ?_
        simp only [tall, weight, one_mul]
        push_cast
        rw [Finset.mul_sum, Finset.sum_smul]
        refine Finset.sum_congr rfl fun j _ => ?_
        rw [smul_smul, smul_smul]
        congr 1
        ring
      rw [e, Finset.sum_range_succ, tall_weight T hT (q + 1) i i.2]
      rw [Finset.sum_range_succ', Rat.cast_zero, mul_zero, zero_smul, add_zero, map_add, map_sum, add_right_comm]
      rw [add_comm (L x0 + v)]
      congr 1
      · refine Finset.sum_congr rfl fun m _ => ?_
        rw [LinearMap.map_smul, pow_succ' L, Module.End.mul_apply]
      · simp [tall, weight]
  congr 1
  simp only [key, Finset.smul_sum]
  rw [Finset.sum_comm]
  refine Finset.sum_congr rfl fun m _ => ?_
  push_cast
  rw [Finset.mul_sum, Finset.sum_smul]
  refine Finset.sum_congr rfl fun i _ => ?_
  rw [smul_smul, smul_smul]
  congr 1
  ring

theorem quadrature_step {s : Nat} (T : Tableau s) (b : Fin s → ℚ) (g : ℝ → E) (t0 dt : ℝ) (x0 x1 : E)
    (h : IsStep T b (fun t _ => g t) t0 dt x0 x1) :
    x1 = x0 + dt • ∑ i, (b i : ℝ) • g (t0 + dt * (T.c i : ℝ)) := by
  obtain ⟨k, hk, rfl⟩ := h
  simp only [hk]

/-- for the monomial `t ^ m` from `0`. -/
theorem quadrature_pow {s : Nat} (T : Tableau s) (b : Fin s → ℚ) (m : Nat) (dt x1 : ℝ)
    (h : IsStep T b (fun t _ => t ^ m) 0 dt 0 x1) : x1 = dt ^ (m + 1) * ((∑ i, b i * T.c i ^ m : ℚ) : ℝ) := by
  rw [quadrature_step T b (fun t => t ^ m) 0 dt 0 x1 h]
  push_cast
  rw [zero_add, smul_eq_mul, Finset.mul_sum, Finset.mul_sum]
  refine Finset.sum_congr rfl fun i _ => ?_
  rw [smul_eq_mul, zero_add]
  ring

end linear

end Verif.Ode
