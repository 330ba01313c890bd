import Verif.Proof.OdeSol
import Verif.Prop.OdeStep

/-!
# C41, C42: the solver `aa_ode_sol` and the path `aa_ode_path`

The runs are those that return: `odeSol … = some r`, where `r.calls` lists the calls of the check.
-/

namespace Verif.Ode
open Finset

set_option linter.unusedSectionVars false

variable {E : Type} [AddCommGroup E] [Module ℝ E] {σ : Type}

/-- **C42** When `aa_ode_sol` returns: the check was called, its last result is the only nonzero one, the output is
the state it left behind, and the return value is zero exactly when that result is positive (and otherwise that
result). -/
theorem C42_sol (i : Integrator) (ssd : E → E → ℝ) (o : Opts) (f : ℝ → E → E) (check : Check σ E) (fuel : Nat)
    (t0 dt0 : ℝ) (x0 : E) (cx : σ) (r : Result σ E) (h : odeSol i ssd o f check fuel t0 dt0 x0 cx = some r) :
    Ended r ∧ ∃ hne : r.calls ≠ [], (r.ret = 0 ↔ 0 < (r.calls.getLast hne).res) := by
  have he : Ended r := by
    cases i
    · exact fixed_ended _ _ _ _ _ _ _ _ _ _ h (by simp)
    · exact fixed_ended _ _ _ _ _ _ _ _ _ _ h (by simp)
    · exact fixed_ended _ _ _ _ _ _ _ _ _ _ h (by simp)
    · exact adapt_ended _ _ _ _ _ _ _ _ _ _ _ _ _ _ h (by simp)
    · exact adapt_ended _ _ _ _ _ _ _ _ _ _ _ _ _ _ h (by simp)
    · exact adapt_ended _ _ _ _ _ _ _ _ _ _ _ _ _ _ h (by simp)
    · exact adapt_ended _ _ _ _ _ _ _ _ _ _ _ _ _ _ h (by simp)
  refine ⟨he, he.nonempty, ?_⟩
  rw [he.ret]
  by_cases hp : (r.calls.getLast he.nonempty).res > 0
  · simp [hp]
  · rw [if_neg hp]
    exact ⟨fun h0 => absurd h0 he.res, fun h0 => absurd h0 hp⟩

/-- **C42** The recorded calls are calls of the given check function, its context threaded through them. -/
theorem C42_calls (i : Integrator) (ssd : E → E → ℝ) (o : Opts) (f : ℝ → E → E) (check : Check σ E) (fuel : Nat)
    (t0 dt0 : ℝ) (x0 : E) (cx : σ) (r : Result σ E) (h : odeSol i ssd o f check fuel t0 dt0 x0 cx = some r) :
    Threaded check cx r.calls r.cx := by
  cases i
  · exact fixed_threaded _ _ _ _ _ _ _ _ _ _ _ h rfl
  · exact fixed_threaded _ _ _ _ _ _ _ _ _ _ _ h rfl
  · exact fixed_threaded _ _ _ _ _ _ _ _ _ _ _ h rfl
  · exact adapt_threaded _ _ _ _ _ _ _ _ _ _ _ _ _ _ _ h rfl
  · exact adapt_threaded _ _ _ _ _ _ _ _ _ _ _ _ _ _ _ h rfl
  · exact adapt_threaded _ _ _ _ _ _ _ _ _ _ _ _ _ _ _ h rfl
  · exact adapt_threaded _ _ _ _ _ _ _ _ _ _ _ _ _ _ _ h rfl

/-- **C42** `aa_ode_path` returns what `aa_ode_sol` with the same check returns, and its points are `x0` followed by
the states presented to the check, in order. -/
theorem C42_path (i : Integrator) (ssd : E → E → ℝ) (o : Opts) (f : ℝ → E → E) (check : Check σ E) (fuel : Nat)
    (t0 dt0 : ℝ) (x0 : E) (cx : σ) :
    odePath i ssd o f check fuel t0 dt0 x0 cx =
      (odeSol i ssd o f check fuel t0 dt0 x0 cx).map fun r => (r.ret, x0 :: r.calls.map Call.x, r.cx) := by
  have key : odeSol i ssd o f (pathCheck check) fuel t0 dt0 x0 ([x0], cx) =
      (odeSol i ssd o f check fuel t0 dt0 x0 cx).map (withPath [x0] 0) := by
    cases i
    · exact fixed_path _ _ _ _ _ _ _ _ _ _
    · exact fixed_path _ _ _ _ _ _ _ _ _ _
    · exact fixed_path _ _ _ _ _ _ _ _ _ _
    · exact adapt_path _ _ _ _ _ _ _ _ _ _ _ _ _ _
    · exact adapt_path _ _ _ _ _ _ _ _ _ _ _ _ _ _
    · exact adapt_path _ _ _ _ _ _ _ _ _ _ _ _ _ _
    · exact adapt_path _ _ _ _ _ _ _ _ _ _ _ _ _ _
  rw [odePath, key, Option.map_map]
  rfl

/-- **C41** With the fixed step integrators the check sees the true time, the step from the state before, and the
derivative there. -/
theorem C41_fixed (ssd : E → E → ℝ) (o : Opts) (f : ℝ → E → E) (check : Check σ E) (fuel : Nat)
    (t0 dt0 : ℝ) (x0 : E) (cx : σ) (r : Result σ E) :
    (odeSol .rk1 ssd o f check fuel t0 dt0 x0 cx = some r → FixedRun rk1 f t0 dt0 x0 r.calls) ∧
    (odeSol .rk2 ssd o f check fuel t0 dt0 x0 cx = some r → FixedRun rk2 f t0 dt0 x0 r.calls) ∧
    (odeSol .rk4 ssd o f check fuel t0 dt0 x0 cx = some r → FixedRun rk4 f t0 dt0 x0 r.calls) := by
  refine ⟨fun h => ?_, fun h => ?_, fun h => ?_⟩ <;>
  exact fixed_run _ f check dt0 fuel t0 x0 x0 cx [] r (by simpa [odeSol] using h) (by intro j c hc; simp at hc) rfl

/-- **C41**, what holds for the adaptive integrators: each presented state is an accepted integrator step, and the first
column of the derivative matrix holds what the previous call of the check left of the last column. Missing: the
time is always `t0` (`C41_violates_time`), and the last column is not the derivative at the presented state
(`C41_violates_derivative`). -/
theorem C41_adaptive_partial (ssd : E → E → ℝ) (o : Opts) (f : ℝ → E → E) (check : Check σ E) (fuel : Nat)
    (t0 dt0 : ℝ) (x0 : E) (cx : σ) (r : Result σ E) :
    (odeSol .rk45f ssd o f check fuel t0 dt0 x0 cx = some r → AdaptRun rkf45 5 ssd o f t0 dt0 x0 r.calls) ∧
    (odeSol .rk45ck ssd o f check fuel t0 dt0 x0 cx = some r → AdaptRun rkck45 5 ssd o f t0 dt0 x0 r.calls) ∧
    (odeSol .rk45dp ssd o f check fuel t0 dt0 x0 cx = some r → AdaptRun dorpri45 6 ssd o f t0 dt0 x0 r.calls) ∧
    (odeSol .rk23bs ssd o f check fuel t0 dt0 x0 cx = some r → AdaptRun rkbs23 4 ssd o f t0 dt0 x0 r.calls) := by
  refine ⟨fun h => ?_, fun h => ?_, fun h => ?_, fun h => ?_⟩
  · exact adapt_run rkf45 5 ssd o f check t0 dt0 x0 (fun f t dt x k => (C40_columns f t dt x k).1) fuel dt0 0 0
      (by simp) x0 _ cx [] r h (by intro j c hc; simp at hc) rfl rfl
  · exact adapt_run rkck45 5 ssd o f check t0 dt0 x0 (fun f t dt x k => (C40_columns f t dt x k).2.1) fuel dt0 0 0
      (by simp) x0 _ cx [] r h (by intro j c hc; simp at hc) rfl rfl
  · exact adapt_run dorpri45 6 ssd o f check t0 dt0 x0 (fun f t dt x k => (C40_columns f t dt x k).2.2.1) fuel dt0 0 0
      (by simp) x0 _ cx [] r h (by intro j c hc; simp at hc) rfl rfl
  · exact adapt_run rkbs23 4 ssd o f check t0 dt0 x0 (fun f t dt x k => (C40_columns f t dt x k).2.2.2.1) fuel dt0 0 0
      (by simp) x0 _ cx [] r h (by intro j c hc; simp at hc) rfl rfl

/-- the check that stops at once. -/
def stopNow : Check Unit ℝ := fun _ _ x y => (1, x, y, ())

/-- **C41 fails**: with every adaptive integrator the check is always given the initial time. In the run below, of
`x' = 1` from `0` with step `1`, it is given the state `1` and the time `0`. -/
theorem C41_violates_time (i : Integrator) (hi : i = .rk45f ∨ i = .rk45ck ∨ i = .rk45dp ∨ i = .rk23bs) :
    (∀ (ssd : E → E → ℝ) (o : Opts) (f : ℝ → E → E) (check : Check σ E) (fuel : Nat) (t0 dt0 : ℝ) (x0 : E) (cx : σ)
      (r : Result σ E), odeSol i ssd o f check fuel t0 dt0 x0 cx = some r → ∀ c ∈ r.calls, c.t = t0) ∧
    ∃ r, odeSol i (fun a b => (a - b) ^ 2) ⟨0, 0, 1, 1⟩ (fun _ _ => (1 : ℝ)) stopNow 1 0 1 0 () = some r ∧
      r.calls = [⟨0, 1, 1, 1, 1, 1⟩] := by
  constructor
  · intro ssd o f check fuel t0 dt0 x0 cx r h c hc
    obtain ⟨j, hj⟩ := List.mem_iff_getElem?.mp hc
    obtain ⟨h1, h2, h3, h4⟩ := C41_adaptive_partial ssd o f check fuel t0 dt0 x0 cx r
    rcases hi with rfl | rfl | rfl | rfl
    · exact (h1 h j c hj).1
    · exact (h2 h j c hj).1
    · exact (h3 h j c hj).1
    · exact (h4 h j c hj).1
  · rcases hi with rfl | rfl | rfl | rfl
    · refine ⟨⟨0, 1, (), _⟩, ?_, rfl⟩
      norm_num [odeSol, adaptLoop, stopNow, rkf45, butcher, butcherX, gemv5, upd, code]
    · refine ⟨⟨0, 1, (), _⟩, ?_, rfl⟩
      norm_num [odeSol, adaptLoop, stopNow, rkck45, butcher, butcherX, gemv5, gemv4, upd, code]
    · refine ⟨⟨0, 1, (), _⟩, ?_, rfl⟩
      norm_num [odeSol, adaptLoop, stopNow, dorpri45, dorpri45With, butcher, butcherX, gemv5, gemv6, upd, code]
    · refine ⟨⟨0, 1, (), _⟩, ?_, rfl⟩
      norm_num [odeSol, adaptLoop, stopNow, rkbs23, butcher, butcherX, gemv3, gemv4, upd, code]

theorem stop_once (step : (ℝ → ℝ → ℝ) → ℝ → ℝ → ℝ → (Nat → ℝ) → Step ℝ) (nk : Nat) (ssd : ℝ → ℝ → ℝ) (o : Opts)
    (f : ℝ → ℝ → ℝ) (t dt x0 : ℝ) (k : Nat → ℝ)
    (he : ssd (step f t dt x0 k).lo (step f t dt x0 k).hi ≤ o.tolDec)
    (hn : (step f t dt x0 k).k (nk - 1) ≠ f t (step f t dt x0 k).hi) :
    ∃ r c, adaptLoop step nk ssd o f stopNow t 1 dt x0 k () [] = some r ∧ r.calls = [c] ∧ c.y ≠ f c.t c.x := by
  refine ⟨⟨0, (step f t dt x0 k).hi, (), _⟩, ⟨t, (step f t dt x0 k).hi, (step f t dt x0 k).k (nk - 1), 1,
    (step f t dt x0 k).hi, (step f t dt x0 k).k (nk - 1)⟩, ?_, rfl, hn⟩
  rw [adaptLoop]
  simp only
  rw [if_neg (not_lt.mpr he)]
  simp [stopNow, code]

/-- **C41 fails**: with every adaptive integrator the derivative given to the check, which is also the one from which
the next step starts, is not the derivative at the presented state: on `x' = x` from `1` with step `1`. -/
theorem C41_violates_derivative (i : Integrator) (hi : i = .rk45f ∨ i = .rk45ck ∨ i = .rk45dp ∨ i = .rk23bs) :
    ∃ r c, odeSol i (fun a b => (a - b) ^ 2) ⟨1, 0, 1, 1⟩ (fun _ x => (x : ℝ)) stopNow 1 0 1 1 () = some r ∧
      r.calls = [c] ∧ c.y ≠ c.x := by
  rcases hi with rfl | rfl | rfl | rfl
  · simp only [odeSol]
    refine stop_once rkf45 5 (fun a b => (a - b) ^ 2) ⟨1, 0, 1, 1⟩ (fun _ x => x) 0 1 1 _ ?_ ?_ <;>
    norm_num [rkf45, butcher, butcherX, gemv2, gemv3, gemv4, gemv5, upd]
  · simp only [odeSol]
    refine stop_once rkck45 5 (fun a b => (a - b) ^ 2) ⟨1, 0, 1, 1⟩ (fun _ x => x) 0 1 1 _ ?_ ?_ <;>
    norm_num [rkck45, butcher, butcherX, gemv2, gemv3, gemv4, gemv5, upd]
  · simp only [odeSol]
    refine stop_once dorpri45 6 (fun a b => (a - b) ^ 2) ⟨1, 0, 1, 1⟩ (fun _ x => x) 0 1 1 _ ?_ ?_ <;>
    norm_num [dorpri45, dorpri45With, butcher, butcherX, gemv2, gemv3, gemv4, gemv5, gemv6, upd]
  · simp only [odeSol]
    refine stop_once rkbs23 4 (fun a b => (a - b) ^ 2) ⟨1, 0, 1, 1⟩ (fun _ x => x) 0 1 1 _ ?_ ?_ <;>
    norm_num [rkbs23, butcher, butcherX, gemv2, gemv3, gemv4, upd]

/-! ## A run meeting the hypotheses -/

/-- A run with three calls of the check: Euler on `x' = x` from `1` with step `1` until the third state. -/
example : ∃ r, odeSol .rk1 (fun a b => (a - b) ^ 2) ⟨0, 0, 1, 1⟩ (fun _ x => (x : ℝ))
    (fun (n : Nat) _ x y => (if n = 2 then 1 else 0, x, y, n + 1)) 3 0 1 1 0 = some r ∧
    r.calls.map Call.x = [2, 4, 8] ∧ r.calls.map Call.t = [1, 2, 3] ∧ r.x1 = 8 ∧ r.ret = 0 := by
  refine ⟨⟨0, 8, 3, [⟨1, 2, 2, 0, 2, 2⟩, ⟨2, 4, 4, 0, 4, 4⟩, ⟨3, 8, 8, 1, 8, 8⟩]⟩, ?_, ?_⟩
  · norm_num [odeSol, fixedLoop, rk1, euler, code]
  · simp

end Verif.Ode
