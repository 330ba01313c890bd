import Verif.Proof.OdeStep
import Verif.Proof.OdeLinear
import Mathlib.Analysis.Calculus.Deriv.Inv
import Mathlib.Tactic.FinCases

/-!
# C40: the order of the Runge-Kutta steps

For a system `f` analytic at `(t0, x0)` and its solution `x` through that point, a step of order `p` differs
from `x (t0 + h)` by `O(h ^ (p + 1))` as `h → 0`.
-/

namespace Verif.Ode
open Finset Filter Asymptotics Topology

section order

set_option maxRecDepth 100000

theorem order_T1 : Order T1 b1 1 := order_of_enum _ _ _ (by decide +kernel) (by decide +kernel)
theorem order_T2 : Order T2 b2 2 := order_of_enum _ _ _ (by decide +kernel) (by decide +kernel)
theorem order_T4 : Order T4 b4 4 := order_of_enum _ _ _ (by decide +kernel) (by decide +kernel)
theorem order_F4 : Order TF bF4 4 := order_of_enum _ _ _ (by decide +kernel) (by decide +kernel)
theorem order_F5 : Order TF bF5 5 := order_of_enum _ _ _ (by decide +kernel) (by decide +kernel)
theorem order_CK5 : Order TCK bCK5 5 := order_of_enum _ _ _ (by decide +kernel) (by decide +kernel)
theorem order_CK4 : Order TCK bCK4 4 := order_of_enum _ _ _ (by decide +kernel) (by decide +kernel)
theorem order_CKc : Order TCK bCKc 1 := order_of_enum _ _ _ (by decide +kernel) (by decide +kernel)
theorem order_DP5 : Order TDP bDP5 5 := order_of_enum _ _ _ (by decide +kernel) (by decide +kernel)
theorem order_DP4 : Order TDP bDP4 4 := order_of_enum _ _ _ (by decide +kernel) (by decide +kernel)
theorem order_BS3 : Order TBS bBS3 3 := order_of_enum _ _ _ (by decide +kernel) (by decide +kernel)
theorem order_BS2 : Order TBS bBS2 2 := order_of_enum _ _ _ (by decide +kernel) (by decide +kernel)

theorem explicit_T1 : Explicit T1 := by unfold Explicit; decide +kernel
theorem explicit_T2 : Explicit T2 := by unfold Explicit; decide +kernel
theorem explicit_T4 : Explicit T4 := by unfold Explicit; decide +kernel
theorem explicit_TF : Explicit TF := by unfold Explicit; decide +kernel
theorem explicit_TCK : Explicit TCK := by unfold Explicit; decide +kernel
theorem explicit_TDP : Explicit TDP := by unfold Explicit; decide +kernel
theorem explicit_TBS : Explicit TBS := by unfold Explicit; decide +kernel

end order

section local_error

variable {E : Type} [NormedAddCommGroup E] [NormedSpace ℝ E]

/-- `x` solves the system through `(t0, x0)`, near `t0`, and the system is analytic there. -/
structure Solves (f : ℝ → E → E) (t0 : ℝ) (x0 : E) (x : ℝ → E) : Prop where
  analytic : AnalyticAt ℝ (Function.uncurry f) (t0, x0)
  start : x t0 = x0
  deriv : ∀ᶠ t in 𝓝 t0, HasDerivAt x (f t (x t)) t

/-- Steps `x1 h` of size `h` from `t0` have local error of order `p + 1`. -/
def LocalOrder (t0 : ℝ) (x : ℝ → E) (x1 : ℝ → E) (p : Nat) : Prop :=
  (fun h => x1 h - x (t0 + h)) =O[𝓝 0] fun h : ℝ => h ^ (p + 1)

/-- **C40** Euler, Heun and the classical method have orders 1, 2 and 4. -/
theorem C40_fixed (f : ℝ → E → E) (t0 : ℝ) (x0 : E) (x : ℝ → E) (hs : Solves f t0 x0 x) :
    LocalOrder t0 x (fun h => rk1 f t0 h x0) 1 ∧ LocalOrder t0 x (fun h => rk2 f t0 h x0) 2 ∧
      LocalOrder t0 x (fun h => rk4 f t0 h x0) 4 :=
  ⟨butcher_local T1 explicit_T1 b1 1 order_T1 f t0 x0 hs.analytic _ (fun h => rk1_step f t0 h x0) x hs.start hs.deriv,
   butcher_local T2 explicit_T2 b2 2 order_T2 f t0 x0 hs.analytic _ (fun h => rk2_step f t0 h x0) x hs.start hs.deriv,
   butcher_local T4 explicit_T4 b4 4 order_T4 f t0 x0 hs.analytic _ (fun h => rk4_step f t0 h x0) x hs.start hs.deriv⟩

/-- **C40** The two solutions of `aa_odestep_rkf45` have orders 4 and 5. -/
theorem C40_rkf45 (f : ℝ → E → E) (t0 : ℝ) (x0 : E) (x : ℝ → E) (hs : Solves f t0 x0 x)
    (k : Nat → E) (hk : k 0 = f t0 x0) :
    LocalOrder t0 x (fun h => (rkf45 f t0 h x0 k).lo) 4 ∧ LocalOrder t0 x (fun h => (rkf45 f t0 h x0 k).hi) 5 :=
  ⟨butcher_local TF explicit_TF bF4 4 order_F4 f t0 x0 hs.analytic _ (fun h => (rkf45_step f t0 h x0 k hk).1) x hs.start hs.deriv,
   butcher_local TF explicit_TF bF5 5 order_F5 f t0 x0 hs.analytic _ (fun h => (rkf45_step f t0 h x0 k hk).2) x hs.start hs.deriv⟩

/-- **C40** The first solution of `aa_odestep_rkck45` has order 5 (so also the documented 4). The second one,
documented as fifth order, only has order 1: see `C40_violates_rkck45`. -/
theorem C40_rkck45_partial (f : ℝ → E → E) (t0 : ℝ) (x0 : E) (x : ℝ → E) (hs : Solves f t0 x0 x)
    (k : Nat → E) (hk : k 0 = f t0 x0) :
    LocalOrder t0 x (fun h => (rkck45 f t0 h x0 k).lo) 5 ∧ LocalOrder t0 x (fun h => (rkck45 f t0 h x0 k).hi) 1 :=
  ⟨butcher_local TCK explicit_TCK bCK5 5 order_CK5 f t0 x0 hs.analytic _ (fun h => (rkck45_step f t0 h x0 k hk).1) x hs.start hs.deriv,
   butcher_local TCK explicit_TCK bCKc 1 order_CKc f t0 x0 hs.analytic _ (fun h => (rkck45_step f t0 h x0 k hk).2) x hs.start hs.deriv⟩

/-- **C40** On systems that do not depend on time, the two solutions of `aa_odestep_dorpri45` have orders 5
and 4. In general they do not, because of the node computed as `8/9 = 0`: see `C40_violates_dorpri45`. -/
theorem C40_dorpri45_partial (f : E → E) (t0 : ℝ) (x0 : E) (x : ℝ → E) (hs : Solves (fun _ => f) t0 x0 x)
    (k : Nat → E) (hk : k 0 = f x0) :
    LocalOrder t0 x (fun h => (dorpri45 (fun _ => f) t0 h x0 k).lo) 5 ∧
      LocalOrder t0 x (fun h => (dorpri45 (fun _ => f) t0 h x0 k).hi) 4 :=
  ⟨butcher_local TDP explicit_TDP bDP5 5 order_DP5 _ t0 x0 hs.analytic _
      (fun h => (dorpri45_step (fun _ => f) t0 h x0 k hk).1) x hs.start hs.deriv,
   butcher_local TDP explicit_TDP bDP4 4 order_DP4 _ t0 x0 hs.analytic _
      (fun h => (dorpri45_step (fun _ => f) t0 h x0 k hk).2) x hs.start hs.deriv⟩

/-- **C40** With the node `8/9` in place of the integer quotient, `aa_odestep_dorpri45` has orders 5 and 4 on all
systems. -/
theorem C40_dorpri45_repaired (f : ℝ → E → E) (t0 : ℝ) (x0 : E) (x : ℝ → E) (hs : Solves f t0 x0 x)
    (k : Nat → E) (hk : k 0 = f t0 x0) :
    LocalOrder t0 x (fun h => (dorpri45With (8 / 9) f t0 h x0 k).lo) 5 ∧
      LocalOrder t0 x (fun h => (dorpri45With (8 / 9) f t0 h x0 k).hi) 4 :=
  ⟨butcher_local TDP explicit_TDP bDP5 5 order_DP5 f t0 x0 hs.analytic _ (fun h => (dorpri45_step f t0 h x0 k hk).1) x hs.start hs.deriv,
   butcher_local TDP explicit_TDP bDP4 4 order_DP4 f t0 x0 hs.analytic _ (fun h => (dorpri45_step f t0 h x0 k hk).2) x hs.start hs.deriv⟩

/-- **C40** The two solutions of `aa_odestep_rkbs23` have orders 3 and 2. -/
theorem C40_rkbs23 (f : ℝ → E → E) (t0 : ℝ) (x0 : E) (x : ℝ → E) (hs : Solves f t0 x0 x)
    (k : Nat → E) (hk : k 0 = f t0 x0) :
    LocalOrder t0 x (fun h => (rkbs23 f t0 h x0 k).lo) 3 ∧ LocalOrder t0 x (fun h => (rkbs23 f t0 h x0 k).hi) 2 :=
  ⟨butcher_local TBS explicit_TBS bBS3 3 order_BS3 f t0 x0 hs.analytic _ (fun h => (rkbs23_step f t0 h x0 k hk).1) x hs.start hs.deriv,
   butcher_local TBS explicit_TBS bBS2 2 order_BS2 f t0 x0 hs.analytic _ (fun h => (rkbs23_step f t0 h x0 k hk).2) x hs.start hs.deriv⟩

end local_error

/-! ## Linear systems -/

section linear

variable {E : Type} [AddCommGroup E] [Module ℝ E]

/-- The first `p` coefficients are those of the exponential. -/
def Taylor (q : Nat → ℚ) (p : Nat) : Prop := ∀ m < p, q m = 1 / ((m + 1).factorial : ℚ)

theorem order_taylor {s : Nat} (T : Tableau s) (b : Fin s → ℚ) (p : Nat) (h : Order T b p) :
    Taylor (fun m => ∑ i, b i * (Tree.tall m).weight T.a i) p := by
  intro m hm
  simp only
  rw [h.2 (Tree.tall m) (by rw [Tree.tall_size]; omega), Tree.tall_density]

/-- **C40** Any explicit method of order `p`, on a linear system with constant input `x' = L x + v` whose exact
solution is `x0 + ∑ dt^(m+1)/(m+1)! L^m (L x0 + v)`: the first `p` terms are exact, all further ones have order
above `p`, and there are at most as many as stages. -/
theorem C40_linear {s : Nat} (T : Tableau s) (hT : Explicit T) (b : Fin s → ℚ) (p : Nat) (ho : Order T b p) :
    ∃ q : Nat → ℚ, Taylor q p ∧ ∀ (L : E →ₗ[ℝ] E) (v : E) (t0 dt : ℝ) (x0 x1 : E),
      IsStep T b (fun _ x => L x + v) t0 dt x0 x1 →
      x1 = x0 + ∑ m ∈ range s, (dt ^ (m + 1) * (q m : ℝ)) • (L ^ m) (L x0 + v) :=
  ⟨_, order_taylor T b p ho, fun L v t0 dt x0 x1 h => linear_step T hT b L v t0 dt x0 x1 h⟩

/-- **C40** `aa_lsim_rk4step` is the degree four Taylor polynomial of the solution of `x' = A x + B u`,
`aa_lsim_estep` the degree one polynomial. -/
theorem C40_lsim {U : Type} (A : E →ₗ[ℝ] E) (B : U → E) (dt : ℝ) (x0 : E) (u : U) :
    lsimRk4step dt A B x0 u =
      x0 + ∑ m ∈ range 4, (dt ^ (m + 1) * (1 / ((m + 1).factorial : ℝ))) • (A ^ m) (A x0 + B u) ∧
    lsimEstep dt A B x0 u = x0 + dt • (A x0 + B u) := by
  constructor
  · have h := linear_step T4 explicit_T4 b4 A (B u) 0 dt x0 _ (rk4_step (fun _ x => A x + B u) 0 dt x0)
    have e : lsimRk4step dt A B x0 u = rk4 (fun _ x => A x + B u) 0 dt x0 := rfl
    rw [e, h]
    congr 1
    refine Finset.sum_congr rfl fun m hm => ?_
    have := order_taylor T4 b4 4 order_T4 m (Finset.mem_range.mp hm)
    simp only at this
    rw [this]
    push_cast
    rfl
  · simp only [lsimEstep, lsimDstep]
    rw [add_comm]

end linear

/-! ## The derivative matrix -/

section cols

variable {E : Type} [AddCommGroup E] [Module ℝ E]

/-- **C40** The first column of the derivative matrix is unmodified; the last columns left by the Dormand-Prince
and Bogacki-Shampine steps are the derivative at the first solution. -/
theorem C40_columns (f : ℝ → E → E) (t0 dt : ℝ) (x0 : E) (k : Nat → E) :
    (rkf45 f t0 dt x0 k).k 0 = k 0 ∧ (rkck45 f t0 dt x0 k).k 0 = k 0 ∧ (dorpri45 f t0 dt x0 k).k 0 = k 0 ∧
    (rkbs23 f t0 dt x0 k).k 0 = k 0 ∧
    (dorpri45 f t0 dt x0 k).k 5 = f (t0 + dt) (dorpri45 f t0 dt x0 k).lo ∧
    (rkbs23 f t0 dt x0 k).k 3 = f (t0 + dt) (rkbs23 f t0 dt x0 k).lo := by
  refine ⟨?_, ?_, ?_, ?_, ?_, ?_⟩
  · simp [rkf45, butcher]
  · simp [rkck45, butcher]
  · simp [dorpri45, dorpri45With, butcher]
  · simp [rkbs23, butcher]
  · simp only [dorpri45, dorpri45With, butcher, upd, mul_one, if_true]
  · simp only [rkbs23, butcher, upd, mul_one, if_true]

end cols

/-! ## Violations -/

theorem not_isBigO_pow (c : ℝ) (hc : c ≠ 0) (m : Nat) :
    ¬ (fun h : ℝ => c * h ^ m) =O[𝓝 0] fun h : ℝ => h ^ (m + 1) := by
  intro hO
  obtain ⟨C, hC0, hC⟩ := hO.exists_pos
  obtain ⟨ε, hε, hball⟩ := Metric.eventually_nhds_iff.mp hC.bound
  have hc' : 0 < |c| := abs_pos.mpr hc
  have hpos : 0 < min (ε / 2) (|c| / (2 * C)) := by positivity
  set h := min (ε / 2) (|c| / (2 * C)) with hh
  have h1 : dist h 0 < ε := by
    rw [Real.dist_eq, sub_zero, abs_of_pos hpos]
    have := min_le_left (ε / 2) (|c| / (2 * C))
    linarith
  have h2 := hball h1
  rw [norm_mul, norm_pow, norm_pow, Real.norm_eq_abs, Real.norm_eq_abs, abs_of_pos hpos, pow_succ] at h2
  have h3 : |c| ≤ C * h := by
    have hp : 0 < h ^ m := by positivity
    by_contra hcon
    push Not at hcon
    nlinarith
  have h4 := min_le_right (ε / 2) (|c| / (2 * C))
  have h5 : C * h ≤ C * (|c| / (2 * C)) := mul_le_mul_of_nonneg_left h4 hC0.le
  have h6 : C * (|c| / (2 * C)) = |c| / 2 := by field_simp
  linarith

/-- the solution of `x' = t ^ m` from zero. -/
theorem solves_pow (m : Nat) : Solves (fun (t : ℝ) (_ : ℝ) => t ^ m) 0 0 fun t => t ^ (m + 1) / (m + 1) where
  analytic := (analyticAt_fst (𝕜 := ℝ)).pow m
  start := by simp
  deriv := by
    filter_upwards with t
    have h := (hasDerivAt_pow (m + 1) t).div_const ((m : ℝ) + 1)
    refine h.congr_deriv ?_
    have : (m : ℝ) + 1 ≠ 0 := by positivity
    push_cast
    field_simp

/-- a step on `x' = t ^ m` with the wrong quadrature coefficient does not have order `m + 1`. -/
theorem not_localOrder (m : Nat) (q : ℝ) (x1 : ℝ → ℝ) (h1 : ∀ h, x1 h = h ^ (m + 1) * q) (hq : q ≠ 1 / (m + 1)) :
    ¬ LocalOrder 0 (fun t : ℝ => t ^ (m + 1) / (m + 1)) x1 (m + 1) := by
  intro h
  refine not_isBigO_pow (q - 1 / (m + 1)) (sub_ne_zero.mpr hq) (m + 1) (h.congr_left fun t => ?_)
  rw [h1, zero_add]
  ring

/-- **C40 fails** for the second solution of `aa_odestep_rkck45`, documented as the fifth order step
(include/amino/math.h:1002): on `x' = t` it does not even have order 2. Its table at src/sigsys.c:443 gives the
column that holds the last stage the weight of the stage before, and conversely. -/
theorem C40_violates_rkck45 : ∃ (f : ℝ → ℝ → ℝ) (x : ℝ → ℝ), Solves f 0 0 x ∧
    ∀ k : Nat → ℝ, k 0 = f 0 0 → ¬ LocalOrder 0 x (fun h => (rkck45 f 0 h 0 k).hi) 2 := by
  refine ⟨_, _, solves_pow 1, fun k hk => ?_⟩
  refine not_localOrder 1 _ _ (fun h => quadrature_pow TCK bCKc 1 h _ (rkck45_step _ 0 h 0 k hk).2) ?_
  have h : ∑ i, bCKc i * TCK.c i ^ 1 ≠ 1 / (1 + 1) := by decide +kernel
  intro hq
  apply h
  have : ((∑ i, bCKc i * TCK.c i ^ 1 : ℚ) : ℝ) = ((1 / (1 + 1) : ℚ) : ℝ) := by rw [hq]; norm_num
  exact_mod_cast this

/-- **C40 fails** for both solutions of `aa_odestep_dorpri45` on systems that depend on time: on `x' = t` neither
has order 2. The fourth node is written `8/9` (src/sigsys.c:484), which is `0` in integer arithmetic. -/
theorem C40_violates_dorpri45 : ∃ (f : ℝ → ℝ → ℝ) (x : ℝ → ℝ), Solves f 0 0 x ∧
    ∀ k : Nat → ℝ, k 0 = f 0 0 → ¬ LocalOrder 0 x (fun h => (dorpri45 f 0 h 0 k).lo) 2 ∧
      ¬ LocalOrder 0 x (fun h => (dorpri45 f 0 h 0 k).hi) 2 := by
  refine ⟨_, _, solves_pow 1, fun k hk => ?_⟩
  have hk' : k 0 = 0 := by rw [hk]; norm_num
  have hc : dorpriC3 = 0 := by simp [dorpriC3]
  constructor
  · refine not_localOrder 1 (500 / 1113 * (3 / 10) + 125 / 192 * (4 / 5) + 11 / 84) _ (fun h => ?_) (by norm_num)
    simp only [dorpri45, dorpri45With, butcher, butcherX, gemv5, upd, Nat.reduceEqDiff,
      OfNat.zero_ne_ofNat, zero_ne_one, OfNat.one_ne_ofNat, OfNat.ofNat_ne_one, if_true, if_false, hk', hc, smul_eq_mul]
    ring
  · refine not_localOrder 1 (7571 / 16695 * (3 / 10) + 393 / 640 * (4 / 5) + 187 / 2100 + 1 / 40) _ (fun h => ?_) (by norm_num)
    simp only [dorpri45, dorpri45With, butcher, butcherX, gemv6, gemv5, upd, Nat.reduceEqDiff,
      OfNat.zero_ne_ofNat, zero_ne_one, OfNat.one_ne_ofNat, OfNat.ofNat_ne_one, if_true, if_false, hk', hc, smul_eq_mul]
    ring

/-- **C40 fails** as documented for the second solutions `x5`, "fifth-order step", of `aa_odestep_dorpri45`
(even with the node repaired) and `aa_odestep_rkbs23`: on `x' = t ^ 4` the former does not have order 5, on
`x' = t ^ 2` the latter does not have order 3. They are the lower order solutions of their pairs. -/
theorem C40_violates_fifth :
    (∃ (f : ℝ → ℝ → ℝ) (x : ℝ → ℝ), Solves f 0 0 x ∧
      ∀ k : Nat → ℝ, k 0 = f 0 0 → ¬ LocalOrder 0 x (fun h => (dorpri45With (8 / 9) f 0 h 0 k).hi) 5) ∧
    (∃ (f : ℝ → ℝ → ℝ) (x : ℝ → ℝ), Solves f 0 0 x ∧
      ∀ k : Nat → ℝ, k 0 = f 0 0 → ¬ LocalOrder 0 x (fun h => (rkbs23 f 0 h 0 k).hi) 3) := by
  constructor
  · refine ⟨_, _, solves_pow 4, fun k hk => ?_⟩
    refine not_localOrder 4 _ _ (fun h => quadrature_pow TDP bDP4 4 h _ (dorpri45_step _ 0 h 0 k hk).2) ?_
    have h : ∑ i, bDP4 i * TDP.c i ^ 4 ≠ 1 / (4 + 1) := by decide +kernel
    intro hq
    apply h
    have : ((∑ i, bDP4 i * TDP.c i ^ 4 : ℚ) : ℝ) = ((1 / (4 + 1) : ℚ) : ℝ) := by rw [hq]; norm_num
    exact_mod_cast this
  · refine ⟨_, _, solves_pow 2, fun k hk => ?_⟩
    refine not_localOrder 2 _ _ (fun h => quadrature_pow TBS bBS2 2 h _ (rkbs23_step _ 0 h 0 k hk).2) ?_
    have h : ∑ i, bBS2 i * TBS.c i ^ 2 ≠ 1 / (2 + 1) := by decide +kernel
    intro hq
    apply h
    have : ((∑ i, bBS2 i * TBS.c i ^ 2 : ℚ) : ℝ) = ((1 / (2 + 1) : ℚ) : ℝ) := by rw [hq]; norm_num
    exact_mod_cast this

/-! ## Instances of the hypotheses -/

/-- A system meeting `Solves`: `x' = t ^ 3`. -/
example : Solves (fun (t : ℝ) (_ : ℝ) => t ^ 3) 0 0 fun t => t ^ (3 + 1) / ((3 : Nat) + 1) := solves_pow 3

/-- A nonlinear system meeting `Solves`: `x' = x ^ 2` through `1`. -/
example : Solves (fun (_ : ℝ) (x : ℝ) => x ^ 2) 0 1 fun t => (1 - t)⁻¹ where
  analytic := (analyticAt_snd (𝕜 := ℝ)).pow 2
  start := by norm_num
  deriv := by
    have : ∀ᶠ t : ℝ in 𝓝 0, t < 1 := eventually_lt_nhds one_pos
    filter_upwards [this] with t ht
    have h1 : (1 : ℝ) - t ≠ 0 := by linarith
    have h := ((hasDerivAt_id t).const_sub 1).inv h1
    refine h.congr_deriv ?_
    simp only [id]
    rw [inv_pow]
    field_simp

end Verif.Ode
