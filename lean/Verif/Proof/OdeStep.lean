import Verif.Prop.OdeOrder

/-!
# The steps of src/sigsys.c against the published tableaux
-/

namespace Verif.Ode
open Finset

set_option linter.unusedSimpArgs false

variable {E : Type} [AddCommGroup E] [Module ℝ E]

/-! ## The code performs these steps -/

theorem isStep_one (T : Tableau 1) (b : Fin 1 → ℚ) (f : ℝ → E → E) (t0 dt : ℝ) (x0 x1 : E) (k0 : E)
    (h0 : k0 = f (t0 + dt * (T.c 0 : ℝ)) (x0 + dt • ((T.a 0 0 : ℝ) • k0)))
    (h : x1 = x0 + dt • ((b 0 : ℝ) • k0)) : IsStep T b f t0 dt x0 x1 := by
  refine ⟨![k0], ?_, by rw [Fin.sum_univ_one]; exact h⟩
  intro i
  rw [Fin.sum_univ_one]
  match i with
  | 0 => exact h0

theorem isStep_two (T : Tableau 2) (b : Fin 2 → ℚ) (f : ℝ → E → E) (t0 dt : ℝ) (x0 x1 : E) (k0 k1 : E)
    (h0 : k0 = f (t0 + dt * (T.c 0 : ℝ)) (x0 + dt • ((T.a 0 0 : ℝ) • k0 + (T.a 0 1 : ℝ) • k1)))
    (h1 : k1 = f (t0 + dt * (T.c 1 : ℝ)) (x0 + dt • ((T.a 1 0 : ℝ) • k0 + (T.a 1 1 : ℝ) • k1)))
    (h : x1 = x0 + dt • ((b 0 : ℝ) • k0 + (b 1 : ℝ) • k1)) : IsStep T b f t0 dt x0 x1 := by
  refine ⟨![k0, k1], ?_, by rw [Fin.sum_univ_two]; exact h⟩
  intro i
  rw [Fin.sum_univ_two]
  match i with
  | 0 => exact h0
  | 1 => exact h1

theorem isStep_four (T : Tableau 4) (b : Fin 4 → ℚ) (f : ℝ → E → E) (t0 dt : ℝ) (x0 x1 : E) (k0 k1 k2 k3 : E)
    (h0 : k0 = f (t0 + dt * (T.c 0 : ℝ)) (x0 + dt • ((T.a 0 0 : ℝ) • k0 + (T.a 0 1 : ℝ) • k1 + (T.a 0 2 : ℝ) • k2 + (T.a 0 3 : ℝ) • k3)))
    (h1 : k1 = f (t0 + dt * (T.c 1 : ℝ)) (x0 + dt • ((T.a 1 0 : ℝ) • k0 + (T.a 1 1 : ℝ) • k1 + (T.a 1 2 : ℝ) • k2 + (T.a 1 3 : ℝ) • k3)))
    (h2 : k2 = f (t0 + dt * (T.c 2 : ℝ)) (x0 + dt • ((T.a 2 0 : ℝ) • k0 + (T.a 2 1 : ℝ) • k1 + (T.a 2 2 : ℝ) • k2 + (T.a 2 3 : ℝ) • k3)))
    (h3 : k3 = f (t0 + dt * (T.c 3 : ℝ)) (x0 + dt • ((T.a 3 0 : ℝ) • k0 + (T.a 3 1 : ℝ) • k1 + (T.a 3 2 : ℝ) • k2 + (T.a 3 3 : ℝ) • k3)))
    (h : x1 = x0 + dt • ((b 0 : ℝ) • k0 + (b 1 : ℝ) • k1 + (b 2 : ℝ) • k2 + (b 3 : ℝ) • k3)) : IsStep T b f t0 dt x0 x1 := by
  refine ⟨![k0, k1, k2, k3], ?_, by rw [Fin.sum_univ_four]; exact h⟩
  intro i
  rw [Fin.sum_univ_four]
  match i with
  | 0 => exact h0
  | 1 => exact h1
  | 2 => exact h2
  | 3 => exact h3

theorem isStep_six (T : Tableau 6) (b : Fin 6 → ℚ) (f : ℝ → E → E) (t0 dt : ℝ) (x0 x1 : E) (k0 k1 k2 k3 k4 k5 : E)
    (h0 : k0 = f (t0 + dt * (T.c 0 : ℝ)) (x0 + dt • ((T.a 0 0 : ℝ) • k0 + (T.a 0 1 : ℝ) • k1 + (T.a 0 2 : ℝ) • k2 + (T.a 0 3 : ℝ) • k3 + (T.a 0 4 : ℝ) • k4 + (T.a 0 5 : ℝ) • k5)))
    (h1 : k1 = f (t0 + dt * (T.c 1 : ℝ)) (x0 + dt • ((T.a 1 0 : ℝ) • k0 + (T.a 1 1 : ℝ) • k1 + (T.a 1 2 : ℝ) • k2 + (T.a 1 3 : ℝ) • k3 + (T.a 1 4 : ℝ) • k4 + (T.a 1 5 : ℝ) • k5)))
    (h2 : k2 = f (t0 + dt * (T.c 2 : ℝ)) (x0 + dt • ((T.a 2 0 : ℝ) • k0 + (T.a 2 1 : ℝ) • k1 + (T.a 2 2 : ℝ) • k2 + (T.a 2 3 : ℝ) • k3 + (T.a 2 4 : ℝ) • k4 + (T.a 2 5 : ℝ) • k5)))
    (h3 : k3 = f (t0 + dt * (T.c 3 : ℝ)) (x0 + dt • ((T.a 3 0 : ℝ) • k0 + (T.a 3 1 : ℝ) • k1 + (T.a 3 2 : ℝ) • k2 + (T.a 3 3 : ℝ) • k3 + (T.a 3 4 : ℝ) • k4 + (T.a 3 5 : ℝ) • k5)))
    (h4 : k4 = f (t0 + dt * (T.c 4 : ℝ)) (x0 + dt • ((T.a 4 0 : ℝ) • k0 + (T.a 4 1 : ℝ) • k1 + (T.a 4 2 : ℝ) • k2 + (T.a 4 3 : ℝ) • k3 + (T.a 4 4 : ℝ) • k4 + (T.a 4 5 : ℝ) • k5)))
    (h5 : k5 = f (t0 + dt * (T.c 5 : ℝ)) (x0 + dt • ((T.a 5 0 : ℝ) • k0 + (T.a 5 1 : ℝ) • k1 + (T.a 5 2 : ℝ) • k2 + (T.a 5 3 : ℝ) • k3 + (T.a 5 4 : ℝ) • k4 + (T.a 5 5 : ℝ) • k5)))
    (h : x1 = x0 + dt • ((b 0 : ℝ) • k0 + (b 1 : ℝ) • k1 + (b 2 : ℝ) • k2 + (b 3 : ℝ) • k3 + (b 4 : ℝ) • k4 + (b 5 : ℝ) • k5)) : IsStep T b f t0 dt x0 x1 := by
  refine ⟨![k0, k1, k2, k3, k4, k5], ?_, by rw [Fin.sum_univ_six]; exact h⟩
  intro i
  rw [Fin.sum_univ_six]
  match i with
  | 0 => exact h0
  | 1 => exact h1
  | 2 => exact h2
  | 3 => exact h3
  | 4 => exact h4
  | 5 => exact h5

theorem isStep_seven (T : Tableau 7) (b : Fin 7 → ℚ) (f : ℝ → E → E) (t0 dt : ℝ) (x0 x1 : E) (k0 k1 k2 k3 k4 k5 k6 : E)
    (h0 : k0 = f (t0 + dt * (T.c 0 : ℝ)) (x0 + dt • ((T.a 0 0 : ℝ) • k0 + (T.a 0 1 : ℝ) • k1 + (T.a 0 2 : ℝ) • k2 + (T.a 0 3 : ℝ) • k3 + (T.a 0 4 : ℝ) • k4 + (T.a 0 5 : ℝ) • k5 + (T.a 0 6 : ℝ) • k6)))
    (h1 : k1 = f (t0 + dt * (T.c 1 : ℝ)) (x0 + dt • ((T.a 1 0 : ℝ) • k0 + (T.a 1 1 : ℝ) • k1 + (T.a 1 2 : ℝ) • k2 + (T.a 1 3 : ℝ) • k3 + (T.a 1 4 : ℝ) • k4 + (T.a 1 5 : ℝ) • k5 + (T.a 1 6 : ℝ) • k6)))
    (h2 : k2 = f (t0 + dt * (T.c 2 : ℝ)) (x0 + dt • ((T.a 2 0 : ℝ) • k0 + (T.a 2 1 : ℝ) • k1 + (T.a 2 2 : ℝ) • k2 + (T.a 2 3 : ℝ) • k3 + (T.a 2 4 : ℝ) • k4 + (T.a 2 5 : ℝ) • k5 + (T.a 2 6 : ℝ) • k6)))
    (h3 : k3 = f (t0 + dt * (T.c 3 : ℝ)) (x0 + dt • ((T.a 3 0 : ℝ) • k0 + (T.a 3 1 : ℝ) • k1 + (T.a 3 2 : ℝ) • k2 + (T.a 3 3 : ℝ) • k3 + (T.a 3 4 : ℝ) • k4 + (T.a 3 5 : ℝ) • k5 + (T.a 3 6 : ℝ) • k6)))
    (h4 : k4 = f (t0 + dt * (T.c 4 : ℝ)) (x0 + dt • ((T.a 4 0 : ℝ) • k0 + (T.a 4 1 : ℝ) • k1 + (T.a 4 2 : ℝ) • k2 + (T.a 4 3 : ℝ) • k3 + (T.a 4 4 : ℝ) • k4 + (T.a 4 5 : ℝ) • k5 + (T.a 4 6 : ℝ) • k6)))
    (h5 : k5 = f (t0 + dt * (T.c 5 : ℝ)) (x0 + dt • ((T.a 5 0 : ℝ) • k0 + (T.a 5 1 : ℝ) • k1 + (T.a 5 2 : ℝ) • k2 + (T.a 5 3 : ℝ) • k3 + (T.a 5 4 : ℝ) • k4 + (T.a 5 5 : ℝ) • k5 + (T.a 5 6 : ℝ) • k6)))
    (h6 : k6 = f (t0 + dt * (T.c 6 : ℝ)) (x0 + dt • ((T.a 6 0 : ℝ) • k0 + (T.a 6 1 : ℝ) • k1 + (T.a 6 2 : ℝ) • k2 + (T.a 6 3 : ℝ) • k3 + (T.a 6 4 : ℝ) • k4 + (T.a 6 5 : ℝ) • k5 + (T.a 6 6 : ℝ) • k6)))
    (h : x1 = x0 + dt • ((b 0 : ℝ) • k0 + (b 1 : ℝ) • k1 + (b 2 : ℝ) • k2 + (b 3 : ℝ) • k3 + (b 4 : ℝ) • k4 + (b 5 : ℝ) • k5 + (b 6 : ℝ) • k6)) : IsStep T b f t0 dt x0 x1 := by
  refine ⟨![k0, k1, k2, k3, k4, k5, k6], ?_, by rw [Fin.sum_univ_seven]; exact h⟩
  intro i
  rw [Fin.sum_univ_seven]
  match i with
  | 0 => exact h0
  | 1 => exact h1
  | 2 => exact h2
  | 3 => exact h3
  | 4 => exact h4
  | 5 => exact h5
  | 6 => exact h6

theorem gemv2 (dt : ℝ) (k : Nat → E) (a b : ℝ) (x : E) : gemv dt k 2 [a, b] x = x + dt • (a • k 0 + b • k 1) := by
  simp [gemv, Finset.sum_range_succ]

theorem gemv3 (dt : ℝ) (k : Nat → E) (a b c : ℝ) (x : E) :
    gemv dt k 3 [a, b, c] x = x + dt • (a • k 0 + b • k 1 + c • k 2) := by
  simp [gemv, Finset.sum_range_succ]

theorem gemv4 (dt : ℝ) (k : Nat → E) (a b c d : ℝ) (x : E) :
    gemv dt k 4 [a, b, c, d] x = x + dt • (a • k 0 + b • k 1 + c • k 2 + d • k 3) := by
  simp [gemv, Finset.sum_range_succ]

theorem gemv5 (dt : ℝ) (k : Nat → E) (a b c d e : ℝ) (x : E) :
    gemv dt k 5 [a, b, c, d, e] x = x + dt • (a • k 0 + b • k 1 + c • k 2 + d • k 3 + e • k 4) := by
  simp [gemv, Finset.sum_range_succ]

theorem gemv6 (dt : ℝ) (k : Nat → E) (a b c d e g : ℝ) (x : E) :
    gemv dt k 6 [a, b, c, d, e, g] x = x + dt • (a • k 0 + b • k 1 + c • k 2 + d • k 3 + e • k 4 + g • k 5) := by
  simp [gemv, Finset.sum_range_succ]

omit [AddCommGroup E] [Module ℝ E] in
theorem upd (k : Nat → E) (i j : Nat) (v : E) : Function.update k i v j = if j = i then v else k j :=
  Function.update_apply ..

omit [AddCommGroup E] [Module ℝ E] in
theorem fcongr (f : ℝ → E → E) {a b : ℝ} {x y : E} (h : a = b) (h' : x = y) : f a x = f b y := by rw [h, h']

theorem T1_vals : T1.a 0 0 = 0 ∧ T1.c 0 = 0 :=
  ⟨rfl, rfl⟩

theorem T2_vals : T2.a 0 0 = 0 ∧ T2.a 0 1 = 0 ∧ T2.a 1 0 = 1 ∧ T2.a 1 1 = 0 ∧ T2.c 0 = 0 ∧ T2.c 1 = 1 :=
  ⟨rfl, rfl, rfl, rfl, rfl, rfl⟩

theorem T4_vals : T4.a 0 0 = 0 ∧ T4.a 0 1 = 0 ∧ T4.a 0 2 = 0 ∧ T4.a 0 3 = 0 ∧ T4.a 1 0 = 1/2 ∧ T4.a 1 1 = 0 ∧
    T4.a 1 2 = 0 ∧ T4.a 1 3 = 0 ∧ T4.a 2 0 = 0 ∧ T4.a 2 1 = 1/2 ∧ T4.a 2 2 = 0 ∧ T4.a 2 3 = 0 ∧
    T4.a 3 0 = 0 ∧ T4.a 3 1 = 0 ∧ T4.a 3 2 = 1 ∧ T4.a 3 3 = 0 ∧ T4.c 0 = 0 ∧ T4.c 1 = 1/2 ∧
    T4.c 2 = 1/2 ∧ T4.c 3 = 1 :=
  ⟨rfl, rfl, rfl, rfl, rfl, rfl, rfl, rfl, rfl, rfl, rfl, rfl, rfl, rfl, rfl, rfl, rfl, rfl, rfl, rfl⟩

theorem TF_vals : TF.a 0 0 = 0 ∧ TF.a 0 1 = 0 ∧ TF.a 0 2 = 0 ∧ TF.a 0 3 = 0 ∧ TF.a 0 4 = 0 ∧ TF.a 0 5 = 0 ∧
    TF.a 1 0 = 1/4 ∧ TF.a 1 1 = 0 ∧ TF.a 1 2 = 0 ∧ TF.a 1 3 = 0 ∧ TF.a 1 4 = 0 ∧ TF.a 1 5 = 0 ∧
    TF.a 2 0 = 3/32 ∧ TF.a 2 1 = 9/32 ∧ TF.a 2 2 = 0 ∧ TF.a 2 3 = 0 ∧ TF.a 2 4 = 0 ∧ TF.a 2 5 = 0 ∧
    TF.a 3 0 = 1932/2197 ∧ TF.a 3 1 = -7200/2197 ∧ TF.a 3 2 = 7296/2197 ∧ TF.a 3 3 = 0 ∧ TF.a 3 4 = 0 ∧ TF.a 3 5 = 0 ∧
    TF.a 4 0 = 439/216 ∧ TF.a 4 1 = -8 ∧ TF.a 4 2 = 3680/513 ∧ TF.a 4 3 = -845/4104 ∧ TF.a 4 4 = 0 ∧ TF.a 4 5 = 0 ∧
    TF.a 5 0 = -8/27 ∧ TF.a 5 1 = 2 ∧ TF.a 5 2 = -3544/2565 ∧ TF.a 5 3 = 1859/4104 ∧ TF.a 5 4 = -11/40 ∧ TF.a 5 5 = 0 ∧
    TF.c 0 = 0 ∧ TF.c 1 = 1/4 ∧ TF.c 2 = 3/8 ∧ TF.c 3 = 12/13 ∧ TF.c 4 = 1 ∧ TF.c 5 = 1/2 :=
  ⟨rfl, rfl, rfl, rfl, rfl, rfl, rfl, rfl, rfl, rfl, rfl, rfl, rfl, rfl, rfl, rfl, rfl, rfl, rfl, rfl, rfl, rfl, rfl, rfl, rfl, rfl, rfl, rfl, rfl, rfl, rfl, rfl, rfl, rfl, rfl, rfl, rfl, rfl, rfl, rfl, rfl, rfl⟩

theorem TCK_vals : TCK.a 0 0 = 0 ∧ TCK.a 0 1 = 0 ∧ TCK.a 0 2 = 0 ∧ TCK.a 0 3 = 0 ∧ TCK.a 0 4 = 0 ∧ TCK.a 0 5 = 0 ∧
    TCK.a 1 0 = 1/5 ∧ TCK.a 1 1 = 0 ∧ TCK.a 1 2 = 0 ∧ TCK.a 1 3 = 0 ∧ TCK.a 1 4 = 0 ∧ TCK.a 1 5 = 0 ∧
    TCK.a 2 0 = 3/40 ∧ TCK.a 2 1 = 9/40 ∧ TCK.a 2 2 = 0 ∧ TCK.a 2 3 = 0 ∧ TCK.a 2 4 = 0 ∧ TCK.a 2 5 = 0 ∧
    TCK.a 3 0 = 3/10 ∧ TCK.a 3 1 = -9/10 ∧ TCK.a 3 2 = 6/5 ∧ TCK.a 3 3 = 0 ∧ TCK.a 3 4 = 0 ∧ TCK.a 3 5 = 0 ∧
    TCK.a 4 0 = -11/54 ∧ TCK.a 4 1 = 5/2 ∧ TCK.a 4 2 = -70/27 ∧ TCK.a 4 3 = 35/27 ∧ TCK.a 4 4 = 0 ∧ TCK.a 4 5 = 0 ∧
    TCK.a 5 0 = 1631/55296 ∧ TCK.a 5 1 = 175/512 ∧ TCK.a 5 2 = 575/13824 ∧ TCK.a 5 3 = 44275/110592 ∧ TCK.a 5 4 = 253/4096 ∧ TCK.a 5 5 = 0 ∧
    TCK.c 0 = 0 ∧ TCK.c 1 = 1/5 ∧ TCK.c 2 = 3/10 ∧ TCK.c 3 = 3/5 ∧ TCK.c 4 = 1 ∧ TCK.c 5 = 7/8 :=
  ⟨rfl, rfl, rfl, rfl, rfl, rfl, rfl, rfl, rfl, rfl, rfl, rfl, rfl, rfl, rfl, rfl, rfl, rfl, rfl, rfl, rfl, rfl, rfl, rfl, rfl, rfl, rfl, rfl, rfl, rfl, rfl, rfl, rfl, rfl, rfl, rfl, rfl, rfl, rfl, rfl, rfl, rfl⟩

theorem TDP_vals : TDP.a 0 0 = 0 ∧ TDP.a 0 1 = 0 ∧ TDP.a 0 2 = 0 ∧ TDP.a 0 3 = 0 ∧ TDP.a 0 4 = 0 ∧ TDP.a 0 5 = 0 ∧
    TDP.a 0 6 = 0 ∧ TDP.a 1 0 = 1/5 ∧ TDP.a 1 1 = 0 ∧ TDP.a 1 2 = 0 ∧ TDP.a 1 3 = 0 ∧ TDP.a 1 4 = 0 ∧
    TDP.a 1 5 = 0 ∧ TDP.a 1 6 = 0 ∧ TDP.a 2 0 = 3/40 ∧ TDP.a 2 1 = 9/40 ∧ TDP.a 2 2 = 0 ∧ TDP.a 2 3 = 0 ∧
    TDP.a 2 4 = 0 ∧ TDP.a 2 5 = 0 ∧ TDP.a 2 6 = 0 ∧ TDP.a 3 0 = 44/45 ∧ TDP.a 3 1 = -56/15 ∧ TDP.a 3 2 = 32/9 ∧
    TDP.a 3 3 = 0 ∧ TDP.a 3 4 = 0 ∧ TDP.a 3 5 = 0 ∧ TDP.a 3 6 = 0 ∧ TDP.a 4 0 = 19372/6561 ∧ TDP.a 4 1 = -25360/2187 ∧
    TDP.a 4 2 = 64448/6561 ∧ TDP.a 4 3 = -212/729 ∧ TDP.a 4 4 = 0 ∧ TDP.a 4 5 = 0 ∧ TDP.a 4 6 = 0 ∧ TDP.a 5 0 = 9017/3168 ∧
    TDP.a 5 1 = -355/33 ∧ TDP.a 5 2 = 46732/5247 ∧ TDP.a 5 3 = 49/176 ∧ TDP.a 5 4 = -5103/18656 ∧ TDP.a 5 5 = 0 ∧ TDP.a 5 6 = 0 ∧
    TDP.a 6 0 = 35/384 ∧ TDP.a 6 1 = 0 ∧ TDP.a 6 2 = 500/1113 ∧ TDP.a 6 3 = 125/192 ∧ TDP.a 6 4 = -2187/6784 ∧ TDP.a 6 5 = 11/84 ∧
    TDP.a 6 6 = 0 ∧ TDP.c 0 = 0 ∧ TDP.c 1 = 1/5 ∧ TDP.c 2 = 3/10 ∧ TDP.c 3 = 4/5 ∧ TDP.c 4 = 8/9 ∧
    TDP.c 5 = 1 ∧ TDP.c 6 = 1 :=
  ⟨rfl, rfl, rfl, rfl, rfl, rfl, rfl, rfl, rfl, rfl, rfl, rfl, rfl, rfl, rfl, rfl, rfl, rfl, rfl, rfl, rfl, rfl, rfl, rfl, rfl, rfl, rfl, rfl, rfl, rfl, rfl, rfl, rfl, rfl, rfl, rfl, rfl, rfl, rfl, rfl, rfl, rfl, rfl, rfl, rfl, rfl, rfl, rfl, rfl, rfl, rfl, rfl, rfl, rfl, rfl, rfl⟩

theorem TBS_vals : TBS.a 0 0 = 0 ∧ TBS.a 0 1 = 0 ∧ TBS.a 0 2 = 0 ∧ TBS.a 0 3 = 0 ∧ TBS.a 1 0 = 1/2 ∧ TBS.a 1 1 = 0 ∧
    TBS.a 1 2 = 0 ∧ TBS.a 1 3 = 0 ∧ TBS.a 2 0 = 0 ∧ TBS.a 2 1 = 3/4 ∧ TBS.a 2 2 = 0 ∧ TBS.a 2 3 = 0 ∧
    TBS.a 3 0 = 2/9 ∧ TBS.a 3 1 = 1/3 ∧ TBS.a 3 2 = 4/9 ∧ TBS.a 3 3 = 0 ∧ TBS.c 0 = 0 ∧ TBS.c 1 = 1/2 ∧
    TBS.c 2 = 3/4 ∧ TBS.c 3 = 1 :=
  ⟨rfl, rfl, rfl, rfl, rfl, rfl, rfl, rfl, rfl, rfl, rfl, rfl, rfl, rfl, rfl, rfl, rfl, rfl, rfl, rfl⟩

theorem b1_vals : b1 0 = 1 := rfl

theorem b2_vals : b2 0 = 1/2 ∧ b2 1 = 1/2 :=
  ⟨rfl, rfl⟩

theorem b4_vals : b4 0 = 1/6 ∧ b4 1 = 1/3 ∧ b4 2 = 1/3 ∧ b4 3 = 1/6 :=
  ⟨rfl, rfl, rfl, rfl⟩

theorem bF4_vals : bF4 0 = 25/216 ∧ bF4 1 = 0 ∧ bF4 2 = 1408/2565 ∧ bF4 3 = 2197/4104 ∧ bF4 4 = -1/5 ∧ bF4 5 = 0 :=
  ⟨rfl, rfl, rfl, rfl, rfl, rfl⟩

theorem bF5_vals : bF5 0 = 16/135 ∧ bF5 1 = 0 ∧ bF5 2 = 6656/12825 ∧ bF5 3 = 28561/56430 ∧ bF5 4 = -9/50 ∧ bF5 5 = 2/55 :=
  ⟨rfl, rfl, rfl, rfl, rfl, rfl⟩

theorem bCK5_vals : bCK5 0 = 37/378 ∧ bCK5 1 = 0 ∧ bCK5 2 = 250/621 ∧ bCK5 3 = 125/594 ∧ bCK5 4 = 0 ∧ bCK5 5 = 512/1771 :=
  ⟨rfl, rfl, rfl, rfl, rfl, rfl⟩

theorem bCK4_vals : bCK4 0 = 2825/27648 ∧ bCK4 1 = 0 ∧ bCK4 2 = 18575/48384 ∧ bCK4 3 = 13525/55296 ∧ bCK4 4 = 277/14336 ∧ bCK4 5 = 1/4 :=
  ⟨rfl, rfl, rfl, rfl, rfl, rfl⟩

theorem bCKc_vals : bCKc 0 = 2825/27648 ∧ bCKc 1 = 0 ∧ bCKc 2 = 18575/48384 ∧ bCKc 3 = 13525/55296 ∧ bCKc 4 = 1/4 ∧ bCKc 5 = 277/14336 :=
  ⟨rfl, rfl, rfl, rfl, rfl, rfl⟩

theorem bDP5_vals : bDP5 0 = 35/384 ∧ bDP5 1 = 0 ∧ bDP5 2 = 500/1113 ∧ bDP5 3 = 125/192 ∧ bDP5 4 = -2187/6784 ∧ bDP5 5 = 11/84 ∧ bDP5 6 = 0 :=
  ⟨rfl, rfl, rfl, rfl, rfl, rfl, rfl⟩

theorem bDP4_vals : bDP4 0 = 5179/57600 ∧ bDP4 1 = 0 ∧ bDP4 2 = 7571/16695 ∧ bDP4 3 = 393/640 ∧ bDP4 4 = -92097/339200 ∧ bDP4 5 = 187/2100 ∧ bDP4 6 = 1/40 :=
  ⟨rfl, rfl, rfl, rfl, rfl, rfl, rfl⟩

theorem bBS3_vals : bBS3 0 = 2/9 ∧ bBS3 1 = 1/3 ∧ bBS3 2 = 4/9 ∧ bBS3 3 = 0 :=
  ⟨rfl, rfl, rfl, rfl⟩

theorem bBS2_vals : bBS2 0 = 7/24 ∧ bBS2 1 = 1/4 ∧ bBS2 2 = 1/3 ∧ bBS2 3 = 1/8 :=
  ⟨rfl, rfl, rfl, rfl⟩

/-- `aa_odestep_rkf45` is the Fehlberg pair. -/
theorem rkf45_step (f : ℝ → E → E) (t0 dt : ℝ) (x0 : E) (k : Nat → E) (hk : k 0 = f t0 x0) :
    IsStep TF bF4 f t0 dt x0 (rkf45 f t0 dt x0 k).lo ∧ IsStep TF bF5 f t0 dt x0 (rkf45 f t0 dt x0 k).hi := by
  set k0 := f t0 x0 with h0
  set k1 := f (t0 + dt * (1/4)) (x0 + (1/4 * dt) • k0) with h1
  set k2 := f (t0 + dt * (3/8)) (x0 + dt • ((3/32 : ℝ) • k0 + (9/32 : ℝ) • k1)) with h2
  set k3 := f (t0 + dt * (12/13)) (x0 + dt • ((1932/2197 : ℝ) • k0 + (-7200/2197 : ℝ) • k1 + (7296/2197 : ℝ) • k2)) with h3
  set k4 := f (t0 + dt * 1) (x0 + dt • ((439/216 : ℝ) • k0 + (-8 : ℝ) • k1 + (3680/513 : ℝ) • k2 + (-845/4104 : ℝ) • k3)) with h4
  set k5 := f (t0 + dt * (1/2)) (x0 + dt • ((-8/27 : ℝ) • k0 + (2 : ℝ) • k1 + (-3544/2565 : ℝ) • k2 + (1859/4104 : ℝ) • k3 + (-11/40 : ℝ) • k4)) with h5
  have elo : (rkf45 f t0 dt x0 k).lo = x0 + dt • ((25 / 216 : ℝ) • k0 + (0 : ℝ) • k5 + (1408 / 2565 : ℝ) • k2 + (2197 / 4104 : ℝ) • k3 + (-1 / 5 : ℝ) • k4) := by
    simp only [rkf45, butcher, butcherX, gemv2, gemv3, gemv4, gemv5, upd, hk, Nat.reduceEqDiff, OfNat.zero_ne_ofNat, zero_ne_one,
        OfNat.one_ne_ofNat, OfNat.ofNat_ne_one, if_true, if_false, ← h1, ← h2, ← h3, ← h4, ← h5]
  have ehi : (rkf45 f t0 dt x0 k).hi = x0 + dt • ((16 / 135 : ℝ) • k0 + (2 / 55 : ℝ) • k5 + (6656 / 12825 : ℝ) • k2 + (28561 / 56430 : ℝ) • k3 + (-9 / 50 : ℝ) • k4) := by
    simp only [rkf45, butcher, butcherX, gemv2, gemv3, gemv4, gemv5, upd, hk, Nat.reduceEqDiff, OfNat.zero_ne_ofNat, zero_ne_one,
        OfNat.one_ne_ofNat, OfNat.ofNat_ne_one, if_true, if_false, ← h1, ← h2, ← h3, ← h4, ← h5]
  refine ⟨?_, ?_⟩
  · refine isStep_six TF bF4 f t0 dt x0 _ k0 k1 k2 k3 k4 k5 ?_ ?_ ?_ ?_ ?_ ?_ ?_ 
    · simp only [TF_vals]
      push_cast
      exact h0.trans (fcongr f (by ring) (by module))
    · simp only [TF_vals]
      push_cast
      exact h1.trans (fcongr f (by ring) (by module))
    · simp only [TF_vals]
      push_cast
      exact h2.trans (fcongr f (by ring) (by module))
    · simp only [TF_vals]
      push_cast
      exact h3.trans (fcongr f (by ring) (by module))
    · simp only [TF_vals]
      push_cast
      exact h4.trans (fcongr f (by ring) (by module))
    · simp only [TF_vals]
      push_cast
      exact h5.trans (fcongr f (by ring) (by module))
    · simp only [bF4_vals]
      push_cast
      exact elo.trans (by module)
  · refine isStep_six TF bF5 f t0 dt x0 _ k0 k1 k2 k3 k4 k5 ?_ ?_ ?_ ?_ ?_ ?_ ?_ 
    · simp only [TF_vals]
      push_cast
      exact h0.trans (fcongr f (by ring) (by module))
    · simp only [TF_vals]
      push_cast
      exact h1.trans (fcongr f (by ring) (by module))
    · simp only [TF_vals]
      push_cast
      exact h2.trans (fcongr f (by ring) (by module))
    · simp only [TF_vals]
      push_cast
      exact h3.trans (fcongr f (by ring) (by module))
    · simp only [TF_vals]
      push_cast
      exact h4.trans (fcongr f (by ring) (by module))
    · simp only [TF_vals]
      push_cast
      exact h5.trans (fcongr f (by ring) (by module))
    · simp only [bF5_vals]
      push_cast
      exact ehi.trans (by module)

/-- `aa_odestep_rkck45`: the first solution is the Cash-Karp one, the second uses the weights `bCKc`. -/
theorem rkck45_step (f : ℝ → E → E) (t0 dt : ℝ) (x0 : E) (k : Nat → E) (hk : k 0 = f t0 x0) :
    IsStep TCK bCK5 f t0 dt x0 (rkck45 f t0 dt x0 k).lo ∧ IsStep TCK bCKc f t0 dt x0 (rkck45 f t0 dt x0 k).hi := by
  set k0 := f t0 x0 with h0
  set k1 := f (t0 + dt * (1/5)) (x0 + (1/5 * dt) • k0) with h1
  set k2 := f (t0 + dt * (3/10)) (x0 + dt • ((3/40 : ℝ) • k0 + (9/40 : ℝ) • k1)) with h2
  set k3 := f (t0 + dt * (3/5)) (x0 + dt • ((3/10 : ℝ) • k0 + (-9/10 : ℝ) • k1 + (6/5 : ℝ) • k2)) with h3
  set k4 := f (t0 + dt * 1) (x0 + dt • ((-11/54 : ℝ) • k0 + (5/2 : ℝ) • k1 + (-70/27 : ℝ) • k2 + (35/27 : ℝ) • k3)) with h4
  set k5 := f (t0 + dt * (7/8)) (x0 + dt • ((1631/55296 : ℝ) • k0 + (175/512 : ℝ) • k1 + (575/13824 : ℝ) • k2 + (44275/110592 : ℝ) • k3 + (253/4096 : ℝ) • k4)) with h5
  have elo : (rkck45 f t0 dt x0 k).lo = x0 + dt • ((37 / 378 : ℝ) • k0 + (512 / 1771 : ℝ) • k5 + (250 / 621 : ℝ) • k2 + (125 / 594 : ℝ) • k3) := by
    simp only [rkck45, butcher, butcherX, gemv2, gemv3, gemv4, gemv5, upd, hk, Nat.reduceEqDiff, OfNat.zero_ne_ofNat, zero_ne_one,
        OfNat.one_ne_ofNat, OfNat.ofNat_ne_one, if_true, if_false, ← h1, ← h2, ← h3, ← h4, ← h5]
  have ehi : (rkck45 f t0 dt x0 k).hi = x0 + dt • ((2825 / 27648 : ℝ) • k0 + (277 / 14336 : ℝ) • k5 + (18575 / 48384 : ℝ) • k2 + (13525 / 55296 : ℝ) • k3 + (1 / 4 : ℝ) • k4) := by
    simp only [rkck45, butcher, butcherX, gemv2, gemv3, gemv4, gemv5, upd, hk, Nat.reduceEqDiff, OfNat.zero_ne_ofNat, zero_ne_one,
        OfNat.one_ne_ofNat, OfNat.ofNat_ne_one, if_true, if_false, ← h1, ← h2, ← h3, ← h4, ← h5]
  refine ⟨?_, ?_⟩
  · refine isStep_six TCK bCK5 f t0 dt x0 _ k0 k1 k2 k3 k4 k5 ?_ ?_ ?_ ?_ ?_ ?_ ?_ 
    · simp only [TCK_vals]
      push_cast
      exact h0.trans (fcongr f (by ring) (by module))
    · simp only [TCK_vals]
      push_cast
      exact h1.trans (fcongr f (by ring) (by module))
    · simp only [TCK_vals]
      push_cast
      exact h2.trans (fcongr f (by ring) (by module))
    · simp only [TCK_vals]
      push_cast
      exact h3.trans (fcongr f (by ring) (by module))
    · simp only [TCK_vals]
      push_cast
      exact h4.trans (fcongr f (by ring) (by module))
    · simp only [TCK_vals]
      push_cast
      exact h5.trans (fcongr f (by ring) (by module))
    · simp only [bCK5_vals]
      push_cast
      exact elo.trans (by module)
  · refine isStep_six TCK bCKc f t0 dt x0 _ k0 k1 k2 k3 k4 k5 ?_ ?_ ?_ ?_ ?_ ?_ ?_ 
    · simp only [TCK_vals]
      push_cast
      exact h0.trans (fcongr f (by ring) (by module))
    · simp only [TCK_vals]
      push_cast
      exact h1.trans (fcongr f (by ring) (by module))
    · simp only [TCK_vals]
      push_cast
      exact h2.trans (fcongr f (by ring) (by module))
    · simp only [TCK_vals]
      push_cast
      exact h3.trans (fcongr f (by ring) (by module))
    · simp only [TCK_vals]
      push_cast
      exact h4.trans (fcongr f (by ring) (by module))
    · simp only [TCK_vals]
      push_cast
      exact h5.trans (fcongr f (by ring) (by module))
    · simp only [bCKc_vals]
      push_cast
      exact ehi.trans (by module)

/-- The step of `aa_odestep_dorpri45` with the fourth node `8/9` against the Dormand-Prince pair. -/
theorem dorpri45_step (f : ℝ → E → E) (t0 dt : ℝ) (x0 : E) (k : Nat → E) (hk : k 0 = f t0 x0) :
    IsStep TDP bDP5 f t0 dt x0 (dorpri45With (8 / 9) f t0 dt x0 k).lo ∧ IsStep TDP bDP4 f t0 dt x0 (dorpri45With (8 / 9) f t0 dt x0 k).hi := by
  set k0 := f t0 x0 with h0
  set k1 := f (t0 + dt * (1/5)) (x0 + (1/5 * dt) • k0) with h1
  set k2 := f (t0 + dt * (3/10)) (x0 + dt • ((3/40 : ℝ) • k0 + (9/40 : ℝ) • k1)) with h2
  set k3 := f (t0 + dt * (4/5)) (x0 + dt • ((44/45 : ℝ) • k0 + (-56/15 : ℝ) • k1 + (32/9 : ℝ) • k2)) with h3
  set k4 := f (t0 + dt * (8/9)) (x0 + dt • ((19372/6561 : ℝ) • k0 + (-25360/2187 : ℝ) • k1 + (64448/6561 : ℝ) • k2 + (-212/729 : ℝ) • k3)) with h4
  set k5 := f (t0 + dt * 1) (x0 + dt • ((9017/3168 : ℝ) • k0 + (-355/33 : ℝ) • k1 + (46732/5247 : ℝ) • k2 + (49/176 : ℝ) • k3 + (-5103/18656 : ℝ) • k4)) with h5
  set k6 := f (t0 + dt * 1) (x0 + dt • ((35/384 : ℝ) • k0 + (11 / 84 : ℝ) • k5 + (500/1113 : ℝ) • k2 + (125/192 : ℝ) • k3 + (-2187/6784 : ℝ) • k4)) with h6
  have elo : (dorpri45With (8 / 9) f t0 dt x0 k).lo = x0 + dt • ((35 / 384 : ℝ) • k0 + (11 / 84 : ℝ) • k5 + (500 / 1113 : ℝ) • k2 + (125 / 192 : ℝ) • k3 + (-2187 / 6784 : ℝ) • k4) := by
    simp only [dorpri45With, butcher, butcherX, gemv2, gemv3, gemv4, gemv5, gemv6, upd, hk, Nat.reduceEqDiff, OfNat.zero_ne_ofNat, zero_ne_one,
        OfNat.one_ne_ofNat, OfNat.ofNat_ne_one, if_true, if_false, ← h1, ← h2, ← h3, ← h4, ← h5, ← h6]
  have ehi : (dorpri45With (8 / 9) f t0 dt x0 k).hi = x0 + dt • ((5179 / 57600 : ℝ) • k0 + (187 / 2100 : ℝ) • k5 + (7571 / 16695 : ℝ) • k2 + (393 / 640 : ℝ) • k3 + (-92097 / 339200 : ℝ) • k4 + (1 / 40 : ℝ) • k6) := by
    simp only [dorpri45With, butcher, butcherX, gemv2, gemv3, gemv4, gemv5, gemv6, upd, hk, Nat.reduceEqDiff, OfNat.zero_ne_ofNat, zero_ne_one,
        OfNat.one_ne_ofNat, OfNat.ofNat_ne_one, if_true, if_false, ← h1, ← h2, ← h3, ← h4, ← h5, ← h6]
  refine ⟨?_, ?_⟩
  · refine isStep_seven TDP bDP5 f t0 dt x0 _ k0 k1 k2 k3 k4 k5 k6 ?_ ?_ ?_ ?_ ?_ ?_ ?_ ?_ 
    · simp only [TDP_vals]
      push_cast
      exact h0.trans (fcongr f (by ring) (by module))
    · simp only [TDP_vals]
      push_cast
      exact h1.trans (fcongr f (by ring) (by module))
    · simp only [TDP_vals]
      push_cast
      exact h2.trans (fcongr f (by ring) (by module))
    · simp only [TDP_vals]
      push_cast
      exact h3.trans (fcongr f (by ring) (by module))
    · simp only [TDP_vals]
      push_cast
      exact h4.trans (fcongr f (by ring) (by module))
    · simp only [TDP_vals]
      push_cast
      exact h5.trans (fcongr f (by ring) (by module))
    · simp only [TDP_vals]
      push_cast
      exact h6.trans (fcongr f (by ring) (by module))
    · simp only [bDP5_vals]
      push_cast
      exact elo.trans (by module)
  · refine isStep_seven TDP bDP4 f t0 dt x0 _ k0 k1 k2 k3 k4 k5 k6 ?_ ?_ ?_ ?_ ?_ ?_ ?_ ?_ 
    · simp only [TDP_vals]
      push_cast
      exact h0.trans (fcongr f (by ring) (by module))
    · simp only [TDP_vals]
      push_cast
      exact h1.trans (fcongr f (by ring) (by module))
    · simp only [TDP_vals]
      push_cast
      exact h2.trans (fcongr f (by ring) (by module))
    · simp only [TDP_vals]
      push_cast
      exact h3.trans (fcongr f (by ring) (by module))
    · simp only [TDP_vals]
      push_cast
      exact h4.trans (fcongr f (by ring) (by module))
    · simp only [TDP_vals]
      push_cast
      exact h5.trans (fcongr f (by ring) (by module))
    · simp only [TDP_vals]
      push_cast
      exact h6.trans (fcongr f (by ring) (by module))
    · simp only [bDP4_vals]
      push_cast
      exact ehi.trans (by module)

/-- `aa_odestep_rkbs23` against the Bogacki-Shampine pair. -/
theorem rkbs23_step (f : ℝ → E → E) (t0 dt : ℝ) (x0 : E) (k : Nat → E) (hk : k 0 = f t0 x0) :
    IsStep TBS bBS3 f t0 dt x0 (rkbs23 f t0 dt x0 k).lo ∧ IsStep TBS bBS2 f t0 dt x0 (rkbs23 f t0 dt x0 k).hi := by
  set k0 := f t0 x0 with h0
  set k1 := f (t0 + dt / 2) (x0 + (dt / 2) • k0) with h1
  set k2 := f (t0 + 3 * dt / 4) (x0 + (3 * dt / 4) • k1) with h2
  set k3 := f (t0 + dt * 1) (x0 + dt • ((2/9 : ℝ) • k0 + (1/3 : ℝ) • k1 + (4/9 : ℝ) • k2)) with h3
  have elo : (rkbs23 f t0 dt x0 k).lo = x0 + dt • ((2 / 9 : ℝ) • k0 + (1 / 3 : ℝ) • k1 + (4 / 9 : ℝ) • k2) := by
    simp only [rkbs23, butcher, butcherX, gemv2, gemv3, gemv4, gemv5, upd, hk, Nat.reduceEqDiff, OfNat.zero_ne_ofNat, zero_ne_one,
        OfNat.one_ne_ofNat, OfNat.ofNat_ne_one, if_true, if_false, ← h1, ← h2, ← h3]
  have ehi : (rkbs23 f t0 dt x0 k).hi = x0 + dt • ((7 / 24 : ℝ) • k0 + (1 / 4 : ℝ) • k1 + (1 / 3 : ℝ) • k2 + (1 / 8 : ℝ) • k3) := by
    simp only [rkbs23, butcher, butcherX, gemv2, gemv3, gemv4, gemv5, upd, hk, Nat.reduceEqDiff, OfNat.zero_ne_ofNat, zero_ne_one,
        OfNat.one_ne_ofNat, OfNat.ofNat_ne_one, if_true, if_false, ← h1, ← h2, ← h3]
  refine ⟨?_, ?_⟩
  · refine isStep_four TBS bBS3 f t0 dt x0 _ k0 k1 k2 k3 ?_ ?_ ?_ ?_ ?_ 
    · simp only [TBS_vals]
      push_cast
      exact h0.trans (fcongr f (by ring) (by module))
    · simp only [TBS_vals]
      push_cast
      exact h1.trans (fcongr f (by ring) (by module))
    · simp only [TBS_vals]
      push_cast
      exact h2.trans (fcongr f (by ring) (by module))
    · simp only [TBS_vals]
      push_cast
      exact h3.trans (fcongr f (by ring) (by module))
    · simp only [bBS3_vals]
      push_cast
      exact elo.trans (by module)
  · refine isStep_four TBS bBS2 f t0 dt x0 _ k0 k1 k2 k3 ?_ ?_ ?_ ?_ ?_ 
    · simp only [TBS_vals]
      push_cast
      exact h0.trans (fcongr f (by ring) (by module))
    · simp only [TBS_vals]
      push_cast
      exact h1.trans (fcongr f (by ring) (by module))
    · simp only [TBS_vals]
      push_cast
      exact h2.trans (fcongr f (by ring) (by module))
    · simp only [TBS_vals]
      push_cast
      exact h3.trans (fcongr f (by ring) (by module))
    · simp only [bBS2_vals]
      push_cast
      exact ehi.trans (by module)

theorem rk1_step (f : ℝ → E → E) (t0 dt : ℝ) (x0 : E) : IsStep T1 b1 f t0 dt x0 (rk1 f t0 dt x0) := by
  set k0 := f t0 x0 with h0
  refine isStep_one T1 b1 f t0 dt x0 _ k0 ?_ ?_ 
  · simp only [T1_vals]
    push_cast
    exact h0.trans (fcongr f (by ring) (by module))
  · simp only [b1_vals, rk1, gemv2, gemv4, cols, euler, List.getD_cons_zero, List.getD_cons_succ, ← h0]
    push_cast
    module

theorem rk2_step (f : ℝ → E → E) (t0 dt : ℝ) (x0 : E) : IsStep T2 b2 f t0 dt x0 (rk2 f t0 dt x0) := by
  set k0 := f t0 x0 with h0
  set k1 := f (t0 + dt) (x0 + dt • k0) with h1
  refine isStep_two T2 b2 f t0 dt x0 _ k0 k1 ?_ ?_ ?_ 
  · simp only [T2_vals]
    push_cast
    exact h0.trans (fcongr f (by ring) (by module))
  · simp only [T2_vals]
    push_cast
    exact h1.trans (fcongr f (by ring) (by module))
  · simp only [b2_vals, rk2, gemv2, gemv4, cols, euler, List.getD_cons_zero, List.getD_cons_succ, ← h0, ← h1]
    push_cast
    module

theorem rk4_step (f : ℝ → E → E) (t0 dt : ℝ) (x0 : E) : IsStep T4 b4 f t0 dt x0 (rk4 f t0 dt x0) := by
  set k0 := f t0 x0 with h0
  set k1 := f (t0 + dt / 2) (x0 + (dt / 2) • k0) with h1
  set k2 := f (t0 + dt / 2) (x0 + (dt / 2) • k1) with h2
  set k3 := f (t0 + dt) (x0 + dt • k2) with h3
  refine isStep_four T4 b4 f t0 dt x0 _ k0 k1 k2 k3 ?_ ?_ ?_ ?_ ?_ 
  · simp only [T4_vals]
    push_cast
    exact h0.trans (fcongr f (by ring) (by module))
  · simp only [T4_vals]
    push_cast
    exact h1.trans (fcongr f (by ring) (by module))
  · simp only [T4_vals]
    push_cast
    exact h2.trans (fcongr f (by ring) (by module))
  · simp only [T4_vals]
    push_cast
    exact h3.trans (fcongr f (by ring) (by module))
  · simp only [b4_vals, rk4, gemv2, gemv4, cols, euler, List.getD_cons_zero, List.getD_cons_succ, ← h0, ← h1, ← h2, ← h3]
    push_cast
    module

end Verif.Ode
