import Verif.Proof.OdeStep

/-!
# Invariants of the loops of `aa_ode_sol`
-/

namespace Verif.Ode
open Finset

set_option linter.unusedSectionVars false

variable {E : Type} [AddCommGroup E] [Module ℝ E] {σ : Type}

/-! ## Specification of runs -/

/-- the state from which the `j`-th presented state was computed: `x0`, or what the check left of the state before. -/
def prev (x0 : E) (calls : List (Call E)) (j : Nat) : E :=
  match j with
  | 0 => x0
  | j + 1 => (calls[j]?.map Call.x').getD x0

/-- the derivative left behind by the call before the `j`-th, or the one at the start. -/
def prevY (y0 : E) (calls : List (Call E)) (j : Nat) : E :=
  match j with
  | 0 => y0
  | j + 1 => (calls[j]?.map Call.y').getD y0

/-- What a loop that accepts a state at each call guarantees about the end of its run. -/
structure Ended (r : Result σ E) : Prop where
  nonempty : r.calls ≠ []
  out : r.x1 = (r.calls.getLast nonempty).x'
  res : (r.calls.getLast nonempty).res ≠ 0
  ret : r.ret = if (r.calls.getLast nonempty).res > 0 then 0 else (r.calls.getLast nonempty).res
  before : ∀ c ∈ r.calls.dropLast, c.res = 0

/-- The calls are those of the check itself: the context is threaded through them. -/
def Threaded (check : Check σ E) : σ → List (Call E) → σ → Prop
  | cx, [], cx' => cx' = cx
  | cx, c :: l, cx' => c.res = (check cx c.t c.x c.y).1 ∧ c.x' = (check cx c.t c.x c.y).2.1 ∧
      c.y' = (check cx c.t c.x c.y).2.2.1 ∧
      Threaded check (check cx c.t c.x c.y).2.2.2 l cx'

/-- The calls of a run with fixed step `dt`: the times are `t0 + dt, t0 + 2 dt, …`, each state is the step of the
integrator from the time and state before, the derivative is the derivative there. -/
def FixedRun (step : (ℝ → E → E) → ℝ → ℝ → E → E) (f : ℝ → E → E) (t0 dt : ℝ) (x0 : E) (calls : List (Call E)) : Prop :=
  ∀ (j : Nat) (c : Call E), calls[j]? = some c → c.t = t0 + (j + 1) * dt ∧ c.x = step f (t0 + j * dt) dt (prev x0 calls j) ∧ c.y = f c.t c.x

/-- The calls of a run with adaptive step: all at the time `t0`, each state being the second solution of an
integrator step from the state before, of a size got from `dt0` by the two factors, whose two solutions
are close, with the derivative the previous call left behind in the first column. -/
def AdaptRun (step : (ℝ → E → E) → ℝ → ℝ → E → (Nat → E) → Step E) (nk : Nat) (ssd : E → E → ℝ) (o : Opts)
    (f : ℝ → E → E) (t0 dt0 : ℝ) (x0 : E) (calls : List (Call E)) : Prop :=
  ∀ (j : Nat) (c : Call E), calls[j]? = some c → c.t = t0 ∧ ∃ (a b : Nat) (k : Nat → E),
    k 0 = prevY (f t0 x0) calls j ∧
    c.x = (step f t0 (dt0 * o.factorDec ^ a * o.factorInc ^ b) (prev x0 calls j) k).hi ∧
    c.y = (step f t0 (dt0 * o.factorDec ^ a * o.factorInc ^ b) (prev x0 calls j) k).k (nk - 1) ∧
    ssd (step f t0 (dt0 * o.factorDec ^ a * o.factorInc ^ b) (prev x0 calls j) k).lo c.x ≤ o.tolDec

/-! ## Proofs -/

omit [AddCommGroup E] [Module ℝ E] in
theorem ended_of (calls : List (Call E)) (c : Call E) (cx : σ) (hb : ∀ c ∈ calls, c.res = 0) (hc : c.res ≠ 0) :
    Ended ⟨code c.res, c.x', cx, calls ++ [c]⟩ where
  nonempty := by simp
  out := by simp
  res := by simpa using hc
  ret := by simp [code]
  before := by simpa using hb

theorem fixed_ended (step : (ℝ → E → E) → ℝ → ℝ → E → E) (f : ℝ → E → E) (check : Check σ E) (dt : ℝ) (fuel : Nat)
    (t : ℝ) (x0 : E) (cx : σ) (calls : List (Call E)) (r : Result σ E)
    (h : fixedLoop step f check dt fuel t x0 cx calls = some r) (hb : ∀ c ∈ calls, c.res = 0) : Ended r := by
  induction fuel generalizing t x0 cx calls with
  | zero => simp [fixedLoop] at h
  | succ fuel ih =>
    rw [fixedLoop] at h
    by_cases hr : (check cx (t + dt) (step f t dt x0) (f (t + dt) (step f t dt x0))).1 ≠ 0
    · rw [if_pos hr] at h
      cases h
      exact ended_of calls ⟨t + dt, step f t dt x0, f (t + dt) (step f t dt x0), _, _, _⟩ _ hb hr
    · rw [if_neg hr] at h
      refine ih _ _ _ _ h fun c hc => ?_
      rw [List.mem_append, List.mem_singleton] at hc
      rcases hc with hc | hc
      · exact hb c hc
      · rw [hc]; exact not_not.mp hr

theorem adapt_ended (step : (ℝ → E → E) → ℝ → ℝ → E → (Nat → E) → Step E) (nk : Nat) (ssd : E → E → ℝ) (o : Opts)
    (f : ℝ → E → E) (check : Check σ E) (t : ℝ) (fuel : Nat)
    (dt : ℝ) (x0 : E) (k : Nat → E) (cx : σ) (calls : List (Call E)) (r : Result σ E)
    (h : adaptLoop step nk ssd o f check t fuel dt x0 k cx calls = some r) (hb : ∀ c ∈ calls, c.res = 0) : Ended r := by
  induction fuel generalizing dt x0 k cx calls with
  | zero => simp [adaptLoop] at h
  | succ fuel ih =>
    rw [adaptLoop] at h
    simp only at h
    by_cases he : ssd (step f t dt x0 k).lo (step f t dt x0 k).hi > o.tolDec
    · rw [if_pos he] at h
      exact ih _ _ _ _ _ h hb
    · rw [if_neg he] at h
      by_cases hr : (check cx t (step f t dt x0 k).hi ((step f t dt x0 k).k (nk - 1))).1 ≠ 0
      · rw [if_pos hr] at h
        cases h
        exact ended_of calls ⟨t, (step f t dt x0 k).hi, (step f t dt x0 k).k (nk - 1), _, _, _⟩ _ hb hr
      · rw [if_neg hr] at h
        refine ih _ _ _ _ _ h fun c hc => ?_
        rw [List.mem_append, List.mem_singleton] at hc
        rcases hc with hc | hc
        · exact hb c hc
        · rw [hc]; exact not_not.mp hr

omit [AddCommGroup E] [Module ℝ E] in
theorem threaded_snoc (check : Check σ E) (cx cx1 : σ) (l : List (Call E)) (h : Threaded check cx l cx1) (t : ℝ) (x y : E) :
    Threaded check cx (l ++ [⟨t, x, y, (check cx1 t x y).1, (check cx1 t x y).2.1,
      (check cx1 t x y).2.2.1⟩]) (check cx1 t x y).2.2.2 := by
  induction l generalizing cx with
  | nil =>
    simp only [Threaded] at h
    subst h
    simp [Threaded]
  | cons c l ih => exact ⟨h.1, h.2.1, h.2.2.1, ih _ h.2.2.2⟩

theorem fixed_threaded (step : (ℝ → E → E) → ℝ → ℝ → E → E) (f : ℝ → E → E) (check : Check σ E) (dt : ℝ) (fuel : Nat)
    (t : ℝ) (x0 : E) (cx0 cx : σ) (calls : List (Call E)) (r : Result σ E)
    (h : fixedLoop step f check dt fuel t x0 cx calls = some r) (hb : Threaded check cx0 calls cx) :
    Threaded check cx0 r.calls r.cx := by
  induction fuel generalizing t x0 cx calls with
  | zero => simp [fixedLoop] at h
  | succ fuel ih =>
    rw [fixedLoop] at h
    have hb' := threaded_snoc check cx0 cx calls hb (t + dt) (step f t dt x0) (f (t + dt) (step f t dt x0))
    by_cases hr : (check cx (t + dt) (step f t dt x0) (f (t + dt) (step f t dt x0))).1 ≠ 0
    · rw [if_pos hr] at h
      cases h
      exact hb'
    · rw [if_neg hr] at h
      exact ih _ _ _ _ h hb'

theorem adapt_threaded (step : (ℝ → E → E) → ℝ → ℝ → E → (Nat → E) → Step E) (nk : Nat) (ssd : E → E → ℝ) (o : Opts)
    (f : ℝ → E → E) (check : Check σ E) (t : ℝ) (fuel : Nat)
    (dt : ℝ) (x0 : E) (k : Nat → E) (cx0 cx : σ) (calls : List (Call E)) (r : Result σ E)
    (h : adaptLoop step nk ssd o f check t fuel dt x0 k cx calls = some r) (hb : Threaded check cx0 calls cx) :
    Threaded check cx0 r.calls r.cx := by
  induction fuel generalizing dt x0 k cx calls with
  | zero => simp [adaptLoop] at h
  | succ fuel ih =>
    rw [adaptLoop] at h
    simp only at h
    by_cases he : ssd (step f t dt x0 k).lo (step f t dt x0 k).hi > o.tolDec
    · rw [if_pos he] at h
      exact ih _ _ _ _ _ h hb
    · rw [if_neg he] at h
      have hb' := threaded_snoc check cx0 cx calls hb t (step f t dt x0 k).hi ((step f t dt x0 k).k (nk - 1))
      by_cases hr : (check cx t (step f t dt x0 k).hi ((step f t dt x0 k).k (nk - 1))).1 ≠ 0
      · rw [if_pos hr] at h
        cases h
        exact hb'
      · rw [if_neg hr] at h
        exact ih _ _ _ _ _ h hb'

/-- the result of the path run for a run with the plain check. -/
def withPath (pts : List E) (n : Nat) (r : Result σ E) : Result (List E × σ) E :=
  ⟨r.ret, r.x1, (pts ++ (r.calls.drop n).map Call.x, r.cx), r.calls⟩

theorem fixed_grow (step : (ℝ → E → E) → ℝ → ℝ → E → E) (f : ℝ → E → E) (check : Check σ E) (dt : ℝ) (fuel : Nat)
    (t : ℝ) (x0 : E) (cx : σ) (calls : List (Call E)) (r : Result σ E)
    (h : fixedLoop step f check dt fuel t x0 cx calls = some r) : ∃ l, r.calls = calls ++ l := by
  induction fuel generalizing t x0 cx calls with
  | zero => simp [fixedLoop] at h
  | succ fuel ih =>
    rw [fixedLoop] at h
    split at h
    · cases h; exact ⟨_, rfl⟩
    · obtain ⟨l, hl⟩ := ih _ _ _ _ h
      exact ⟨_, by rw [hl, List.append_assoc]⟩

theorem adapt_grow (step : (ℝ → E → E) → ℝ → ℝ → E → (Nat → E) → Step E) (nk : Nat) (ssd : E → E → ℝ) (o : Opts)
    (f : ℝ → E → E) (check : Check σ E) (t : ℝ) (fuel : Nat)
    (dt : ℝ) (x0 : E) (k : Nat → E) (cx : σ) (calls : List (Call E)) (r : Result σ E)
    (h : adaptLoop step nk ssd o f check t fuel dt x0 k cx calls = some r) : ∃ l, r.calls = calls ++ l := by
  induction fuel generalizing dt x0 k cx calls with
  | zero => simp [adaptLoop] at h
  | succ fuel ih =>
    rw [adaptLoop] at h
    simp only at h
    split at h
    · exact ih _ _ _ _ _ h
    · split at h
      · cases h; exact ⟨_, rfl⟩
      · obtain ⟨l, hl⟩ := ih _ _ _ _ _ h
        exact ⟨_, by rw [hl, List.append_assoc]⟩

omit [AddCommGroup E] [Module ℝ E] in
theorem withPath_snoc (pts : List E) (calls : List (Call E)) (c : Call E) (r : Result σ E)
    (hl : ∃ l, r.calls = (calls ++ [c]) ++ l) :
    withPath (pts ++ [c.x]) (calls ++ [c]).length r = withPath pts calls.length r := by
  obtain ⟨l, hl⟩ := hl
  have h1 : r.calls.drop (calls ++ [c]).length = l := by rw [hl, List.drop_left]
  have h2 : r.calls.drop calls.length = c :: l := by
    rw [hl, List.append_assoc, List.drop_left, List.singleton_append]
  simp only [withPath, h1, h2, List.map_cons, List.append_assoc, List.singleton_append]

theorem fixed_path (step : (ℝ → E → E) → ℝ → ℝ → E → E) (f : ℝ → E → E) (check : Check σ E) (dt : ℝ) (fuel : Nat)
    (t : ℝ) (x0 : E) (pts : List E) (cx : σ) (calls : List (Call E)) :
    fixedLoop step f (pathCheck check) dt fuel t x0 (pts, cx) calls =
      (fixedLoop step f check dt fuel t x0 cx calls).map (withPath pts calls.length) := by
  induction fuel generalizing t x0 pts cx calls with
  | zero => rfl
  | succ fuel ih =>
    rw [fixedLoop, fixedLoop]
    simp only [pathCheck]
    by_cases hr : (check cx (t + dt) (step f t dt x0) (f (t + dt) (step f t dt x0))).1 ≠ 0
    · rw [if_pos hr]
      refine (if_pos hr).trans ?_
      simp [withPath]
    · rw [if_neg hr]
      refine (if_neg hr).trans ?_
      rw [ih]
      cases hL : fixedLoop step f check dt fuel (t + dt)
        (check cx (t + dt) (step f t dt x0) (f (t + dt) (step f t dt x0))).2.1
        (check cx (t + dt) (step f t dt x0) (f (t + dt) (step f t dt x0))).2.2.2
        (calls ++ [⟨t + dt, step f t dt x0, f (t + dt) (step f t dt x0),
          (check cx (t + dt) (step f t dt x0) (f (t + dt) (step f t dt x0))).1,
          (check cx (t + dt) (step f t dt x0) (f (t + dt) (step f t dt x0))).2.1,
          (check cx (t + dt) (step f t dt x0) (f (t + dt) (step f t dt x0))).2.2.1⟩]) with
      | none => rfl
      | some r => exact congrArg some (withPath_snoc pts calls _ r (fixed_grow _ _ _ _ _ _ _ _ _ _ hL))

theorem adapt_path (step : (ℝ → E → E) → ℝ → ℝ → E → (Nat → E) → Step E) (nk : Nat) (ssd : E → E → ℝ) (o : Opts)
    (f : ℝ → E → E) (check : Check σ E) (t : ℝ) (fuel : Nat)
    (dt : ℝ) (x0 : E) (k : Nat → E) (pts : List E) (cx : σ) (calls : List (Call E)) :
    adaptLoop step nk ssd o f (pathCheck check) t fuel dt x0 k (pts, cx) calls =
      (adaptLoop step nk ssd o f check t fuel dt x0 k cx calls).map (withPath pts calls.length) := by
  induction fuel generalizing dt x0 k pts cx calls with
  | zero => rfl
  | succ fuel ih =>
    rw [adaptLoop, adaptLoop]
    simp only [pathCheck]
    by_cases he : ssd (step f t dt x0 k).lo (step f t dt x0 k).hi > o.tolDec
    · rw [if_pos he, if_pos he]
      exact ih _ _ _ _ _ _
    · rw [if_neg he, if_neg he]
      by_cases hr : (check cx t (step f t dt x0 k).hi ((step f t dt x0 k).k (nk - 1))).1 ≠ 0
      · rw [if_pos hr]
        refine (if_pos hr).trans ?_
        simp [withPath]
      · rw [if_neg hr]
        refine (if_neg hr).trans ?_
        refine (ih _ _ _ _ _ _).trans ?_
        generalize hL : adaptLoop step nk ssd o f check t fuel _ _ _ _ _ = w
        cases w with
        | none => rfl
        | some r => exact congrArg some (withPath_snoc pts calls
            ⟨t, (step f t dt x0 k).hi, (step f t dt x0 k).k (nk - 1), _, _, _⟩ r (adapt_grow _ _ _ _ _ _ _ _ _ _ _ _ _ _ hL))

theorem prev_snoc (x0 : E) (calls l : List (Call E)) (j : Nat) (h : j ≤ calls.length) :
    prev x0 (calls ++ l) j = prev x0 calls j := by
  cases j with
  | zero => rfl
  | succ j => simp only [prev]; rw [List.getElem?_append_left h]

theorem prevY_snoc (x0 : E) (calls l : List (Call E)) (j : Nat) (h : j ≤ calls.length) :
    prevY x0 (calls ++ l) j = prevY x0 calls j := by
  cases j with
  | zero => rfl
  | succ j => simp only [prevY]; rw [List.getElem?_append_left h]

theorem get_snoc (calls : List (Call E)) (c c' : Call E) (j : Nat) (h : (calls ++ [c])[j]? = some c') :
    calls[j]? = some c' ∧ j < calls.length ∨ j = calls.length ∧ c' = c := by
  rcases Nat.lt_or_ge j calls.length with hj | hj
  · rw [List.getElem?_append_left hj] at h
    exact Or.inl ⟨h, hj⟩
  · right
    rw [List.getElem?_append_right hj] at h
    obtain ⟨q, hq⟩ : ∃ q, j - calls.length = q := ⟨_, rfl⟩
    rw [hq] at h
    cases q with
    | zero => simp at h; exact ⟨by omega, h.symm⟩
    | succ q => simp at h

theorem fixed_run (step : (ℝ → E → E) → ℝ → ℝ → E → E) (f : ℝ → E → E) (check : Check σ E) (dt : ℝ) (fuel : Nat)
    (t0 : ℝ) (X0 : E) (x0 : E) (cx : σ) (calls : List (Call E)) (r : Result σ E)
    (h : fixedLoop step f check dt fuel (t0 + calls.length * dt) x0 cx calls = some r)
    (hb : FixedRun step f t0 dt X0 calls) (hx : x0 = prev X0 calls calls.length) : FixedRun step f t0 dt X0 r.calls := by
  induction fuel generalizing x0 cx calls with
  | zero => simp [fixedLoop] at h
  | succ fuel ih =>
    rw [fixedLoop] at h
    set t := t0 + calls.length * dt with ht
    set R := check cx (t + dt) (step f t dt x0) (f (t + dt) (step f t dt x0)) with hR
    have hb' : FixedRun step f t0 dt X0 (calls ++ [⟨t + dt, step f t dt x0, f (t + dt) (step f t dt x0), R.1, R.2.1, R.2.2.1⟩]) := by
      intro j c hc
      rcases get_snoc _ _ _ _ hc with ⟨h1, h2⟩ | ⟨h1, h2⟩
      · rw [prev_snoc _ _ _ _ h2.le]
        exact hb j c h1
      · subst h1 h2
        rw [prev_snoc _ _ _ _ le_rfl, ← hx]
        exact ⟨by rw [ht]; ring, rfl, rfl⟩
    by_cases hr : R.1 ≠ 0
    · rw [if_pos hr] at h
      cases h
      exact hb'
    · rw [if_neg hr] at h
      have e : t + dt = t0 + ((calls ++ [(⟨t + dt, step f t dt x0, f (t + dt) (step f t dt x0), R.1, R.2.1, R.2.2.1⟩ : Call E)]).length : ℝ) * dt := by
        rw [List.length_append, List.length_singleton, ht]; push_cast; ring
      rw [e] at h
      refine ih _ _ _ (by rw [← e] at h ⊢; exact h) hb' ?_
      simp [prev]

theorem adapt_run (step : (ℝ → E → E) → ℝ → ℝ → E → (Nat → E) → Step E) (nk : Nat) (ssd : E → E → ℝ) (o : Opts)
    (f : ℝ → E → E) (check : Check σ E) (t0 dt0 : ℝ) (X0 : E) (hstep : ∀ f t dt x k, (step f t dt x k).k 0 = k 0) (fuel : Nat)
    (dt : ℝ) (a b : Nat) (hdt : dt = dt0 * o.factorDec ^ a * o.factorInc ^ b)
    (x0 : E) (k : Nat → E) (cx : σ) (calls : List (Call E)) (r : Result σ E)
    (h : adaptLoop step nk ssd o f check t0 fuel dt x0 k cx calls = some r)
    (hb : AdaptRun step nk ssd o f t0 dt0 X0 calls) (hx : x0 = prev X0 calls calls.length)
    (hk : k 0 = prevY (f t0 X0) calls calls.length) :
    AdaptRun step nk ssd o f t0 dt0 X0 r.calls := by
  induction fuel generalizing dt a b x0 k cx calls with
  | zero => simp [adaptLoop] at h
  | succ fuel ih =>
    rw [adaptLoop] at h
    simp only at h
    set S := step f t0 dt x0 k with hS
    by_cases he : ssd S.lo S.hi > o.tolDec
    · rw [if_pos he] at h
      exact ih _ (a + 1) b (by rw [hdt, pow_succ]; ring) _ _ _ _ h hb hx (by rw [hS, hstep, hk])
    · rw [if_neg he] at h
      set R := check cx t0 S.hi (S.k (nk - 1)) with hR
      have hb' : AdaptRun step nk ssd o f t0 dt0 X0 (calls ++ [⟨t0, S.hi, S.k (nk - 1), R.1, R.2.1, R.2.2.1⟩]) := by
        intro j c hc
        rcases get_snoc _ _ _ _ hc with ⟨h1, h2⟩ | ⟨h1, h2⟩
        · rw [prev_snoc _ _ _ _ h2.le, prevY_snoc _ _ _ _ h2.le]
          exact hb j c h1
        · subst h1 h2
          rw [prev_snoc _ _ _ _ le_rfl, prevY_snoc _ _ _ _ le_rfl, ← hx, ← hk]
          refine ⟨rfl, a, b, k, rfl, ?_, ?_, ?_⟩
          · rw [← hdt]
          · rw [← hdt]
          · rw [← hdt]; exact not_lt.mp he
      by_cases hr : R.1 ≠ 0
      · rw [if_pos hr] at h
        cases h
        exact hb'
      · rw [if_neg hr] at h
        have hlast : prevY (f t0 X0) (calls ++ [⟨t0, S.hi, S.k (nk - 1), R.1, R.2.1, R.2.2.1⟩])
            (calls ++ [(⟨t0, S.hi, S.k (nk - 1), R.1, R.2.1, R.2.2.1⟩ : Call E)]).length = R.2.2.1 := by
          simp [prevY]
        have hlastx : prev X0 (calls ++ [⟨t0, S.hi, S.k (nk - 1), R.1, R.2.1, R.2.2.1⟩])
            (calls ++ [(⟨t0, S.hi, S.k (nk - 1), R.1, R.2.1, R.2.2.1⟩ : Call E)]).length = R.2.1 := by
          simp [prev]
        by_cases hi : ssd S.lo S.hi < o.tolInc
        · rw [if_pos hi] at h
          exact ih _ a (b + 1) (by rw [hdt, pow_succ]; ring) _ _ _ _ h hb' hlastx.symm (by rw [hlast]; simp)
        · rw [if_neg hi] at h
          exact ih _ a b hdt _ _ _ _ h hb' hlastx.symm (by rw [hlast]; simp)

end Verif.Ode
