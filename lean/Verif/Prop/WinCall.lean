import Verif.Proof.WinCall3

/-! C107: functions that are passed to the thread of the window. -/

namespace Verif.WinCall

/-- The function of call `c` was run exactly once, with the context of the call,
and its result was `r`. -/
def RanOnce (s : St) (c : Call) (r : Nat) : Prop :=
  s.log.filter (fun e => e.call.id = c.id) = [⟨c, c.ctx, r⟩]

/-- The states of all schedules with steps of the kind `ok`, as long as `good`
holds. -/
inductive Reach (ok : Lbl → Prop) (good : St → Prop) : St → Prop where
  | init : Reach ok good init
  | step {s s' : St} {l : Lbl} : Reach ok good s → ok l → step s l = some s' → good s' →
      Reach ok good s'

/-- There is no window yet. -/
def NoWindow (s : St) : Prop := s.win = false

/-- There is no window yet, and no two threads are in calls at the same time. -/
def OneCall (s : St) : Prop :=
  s.win = false ∧ ∀ t u, (s.pc t).stg ≠ .idle → (s.pc u).stg ≠ .idle → t = u

/-- No inner calls and no window. -/
def plain : Lbl → Prop
  | .nest _ _ | .create _ => False
  | _ => True

/-- Steps of the code, without new calls and spurious wake-ups. -/
def code : Lbl → Prop
  | .caller _ | .win | .ret _ => True
  | _ => False

theorem reach_inv {ok : Lbl → Prop} {good : St → Prop} (hg : ∀ s, good s → s.win = false)
    {s : St} (h : Reach ok good s) : Inv s := by
  induction h with
  | init => exact inv_init
  | step _ _ e g ih => exact inv_step ih (hg _ g) e

theorem reach_calm {s : St} (h : Reach plain OneCall s) : Calm s := by
  have hi : Inv s := reach_inv (fun s h => h.1) h
  induction h with
  | init => exact ⟨inv_init, inv2_init, by intro t u h; simp [init] at h, rfl, by simp [init],
      by simp [init]⟩
  | @step s s' l hr ok e g ih =>
    have hc := ih (reach_inv (fun s h => h.1) hr)
    refine ⟨hi, inv2_step hc.inv hc.inv2 hc.alone e, g.2, g.1, ?_, ?_⟩
    · by_cases ho : own l
      · exact (calm_step hc ho e).noNest
      · have hn := hc.noNest
        cases l <;> simp [plain] at ok <;> simp [own] at ho
        all_goals simp only [step] at e
        all_goals grind [wakeW_nLock]
    · by_cases ho : own l
      · exact (calm_step hc ho e).noCreate
      · have hn := hc.noCreate
        intro t
        have h1 := hn t
        cases l <;> simp [plain] at ok <;> simp [own] at ho
        all_goals simp only [step] at e
        all_goals split at e
        all_goals (try (simp at e; done))
        all_goals (simp only [Option.some.injEq] at e; subst e; simp only [upd_eq]; grind [wakeC_stg])

/-- Any number of threads, whose calls may overlap, while there is no window: a
call returns only after its function was run once with its context; no function
is run twice or with another context; no two threads access the variables at the
same time. Missing: the returned value (see `C107_violates_overlap`), and the
time after there is a window (see the other violations). -/
theorem C107_once_partial {s : St} (h : Reach (fun _ => True) NoWindow s) :
    (∀ c r, (c, r) ∈ s.rets → ∃ r', RanOnce s c r') ∧
    (∀ e ∈ s.log, e.arg = e.call.ctx ∧ RanOnce s e.call e.res) ∧ ¬ races s := by
  have hi : Inv s := reach_inv (fun s h => h) h
  refine ⟨fun c r hc => hi.ran _ hc, ?_, ?_⟩
  · intro e he
    obtain ⟨r, hr⟩ := hi.all e he
    have hm : e ∈ runsOf s.log e.call := by simp [runsOf, he]
    rw [hr, List.mem_singleton] at hm
    have h1 : e.arg = e.call.ctx := by rw [hm]
    have h2 : e.res = r := by rw [hm]
    exact ⟨h1, by rw [h2]; exact hr⟩
  · have hC : ∀ t b, accessC (s.pc t).stg = some b → s.mutex = some (.thread t) := by
      intro t b hb
      apply (hi.mC t).1
      revert hb
      cases (s.pc t).stg <;> simp [accessC, holdsC]
    have hW : ∀ b, accessW s.w.stg = some b → s.mutex = some .win := by
      intro b hb
      apply hi.mW.1
      have := hi.wst
      revert hb this
      cases s.w.stg <;> simp [accessW, holdsW]
    rintro (⟨t, b, c, h1, h2, _⟩ | ⟨t, u, b, c, h0, h1, h2, _⟩)
    · have := hC t b h1
      rw [hW c h2] at this; simp at this
    · have := hC t b h1
      rw [hC u c h2] at this
      simp at this
      exact h0 this.symm

/-- Calls of any threads that do not overlap, while there is no window: each
call returns the value of its function, which was run once with its context. -/
theorem C107_result_partial {s : St} (h : Reach (fun _ => True) OneCall s) :
    ∀ c r, (c, r) ∈ s.rets → RanOnce s c r := by
  have key : Inv s ∧ Inv2 s ∧ Alone s := by
    induction h with
    | init => exact ⟨inv_init, inv2_init, by intro t u h; simp [init] at h⟩
    | step _ _ e g ih =>
      exact ⟨inv_step ih.1 g.1 e, inv2_step ih.1 ih.2.1 ih.2.2 e, g.2⟩
  exact fun c r hc => key.2.1.rets _ hc

/-- Calls that do not overlap, with functions that make no calls, while there is
no window: whatever steps the threads take, a call has returned after fewer than
two hundred steps, and until then some thread can take a step. -/
theorem C107_returns_partial {s s' : St} {t : Nat} {ls : List Lbl}
    (h : Reach plain OneCall s) (ht : (s.pc t).stg ≠ .idle)
    (hl : ∀ l ∈ ls, code l) (e : exec s ls = some s') :
    (∃ r, ((s.pc t).call, r) ∈ s'.rets) ∨
    (ls.length < 200 ∧ ∃ l s'', code l ∧ step s' l = some s'') := by
  have hc := reach_calm h
  have hcls : ∀ {s t}, Calm s → (s.pc t).stg ≠ .idle → cls (s.pc t).stg ≠ .none := by
    intro s t hc ht
    have hn := hc.noCreate t
    revert hn ht
    cases (s.pc t).stg <;> simp [cls]
  have hown : ∀ {l}, own l → code l := by intro l; cases l <;> simp [own, code]
  have hown' : ∀ {l}, code l → own l := by intro l; cases l <;> simp [own, code]
  rcases live hc (fun l hm => hown' (hl l hm)) e (hcls hc ht) with hr | ⟨g1, g2, _, g4⟩
  · exact Or.inl hr
  · refine Or.inr ⟨by have := mu_lt s t; omega, ?_⟩
    obtain ⟨l, s'', h1, h2⟩ := progress g1.inv g1.inv2 g1.alone g2 g1.noNest g1.win
    exact ⟨l, s'', hown h1, h2⟩

theorem reach_exec {ls : List Lbl} : ∀ {s s' : St}, Reach (fun _ => True) NoWindow s →
    exec s ls = some s' → s'.win = false → Reach (fun _ => True) NoWindow s' := by
  have mono : ∀ (ls : List Lbl) (s s' : St), exec s ls = some s' → s'.win = false →
      s.win = false := by
    intro ls
    induction ls with
    | nil => intro s s' e h; simp only [exec, Option.some.injEq] at e; subst e; exact h
    | cons l ls ih =>
      intro s s' e h
      simp only [exec, Option.bind_eq_some_iff] at e
      obtain ⟨s1, e1, e2⟩ := e
      have h1 := ih s1 s' e2 h
      cases hs : s.win with
      | false => rfl
      | true => rw [step_win e1 hs] at h1; simp at h1
  induction ls with
  | nil => intro s s' h e _; simp only [exec, Option.some.injEq] at e; subst e; exact h
  | cons l ls ih =>
    intro s s' h e hw
    simp only [exec, Option.bind_eq_some_iff] at e
    obtain ⟨s1, e1, e2⟩ := e
    exact ih (.step h trivial e1 (mono ls s1 s' e2 hw)) e2 hw

/-- All schedules, with and without a window. -/
theorem reach_all {ls : List Lbl} : ∀ {s s' : St}, Reach (fun _ => True) (fun _ => True) s →
    exec s ls = some s' → Reach (fun _ => True) (fun _ => True) s' := by
  induction ls with
  | nil => intro s s' h e; simp only [exec, Option.some.injEq] at e; subst e; exact h
  | cons l ls ih =>
    intro s s' h e
    simp only [exec, Option.bind_eq_some_iff] at e
    obtain ⟨s1, e1, e2⟩ := e
    exact ih (.step h trivial e1 trivial) e2

/-- The step begins a call or a window in thread `u`. -/
def begins (u : Nat) : Lbl → Bool
  | .start t _ _ | .create t => t = u
  | _ => false

theorem idle_step {s s' : St} {l : Lbl} {u : Nat} (h : (s.pc u).stg = .idle)
    (hl : begins u l = false) (e : step s l = some s') : (s'.pc u).stg = .idle := by
  have hk : (wakeC (s.pc u)).stg = .idle := by simp [wakeC, h]
  cases l
  case caller t =>
    simp only [step, callerStep, to] at e
    have hne : u ≠ t ∨ (s.pc t).stg = .idle := by
      by_cases hu : u = t
      · subst hu; exact Or.inr h
      · exact Or.inl hu
    split at e
    all_goals (try split at e)
    all_goals (try (simp at e; done))
    all_goals (simp only [Option.some.injEq] at e; subst e; simp only [upd_eq]; grind)
  case win =>
    simp only [step, winStep, wto] at e
    split at e
    all_goals (try split at e)
    all_goals (try split at e)
    all_goals (try (simp at e; done))
    all_goals (simp only [Option.some.injEq] at e; subst e; grind)
  all_goals
    simp only [begins, decide_eq_false_iff_not] at hl
    simp only [step, to] at e
    split at e
    all_goals (try (simp at e; done))
    all_goals (simp only [Option.some.injEq] at e; subst e; (try simp only [upd_eq]); grind)

theorem idle_exec {u : Nat} {ls : List Lbl} : ∀ {s s' : St}, (s.pc u).stg = .idle →
    (∀ l ∈ ls, begins u l = false) → exec s ls = some s' → (s'.pc u).stg = .idle := by
  induction ls with
  | nil => intro s s' h _ e; simp only [exec, Option.some.injEq] at e; subst e; exact h
  | cons l ls ih =>
    intro s s' h hl e
    simp only [exec, Option.bind_eq_some_iff] at e
    obtain ⟨s1, e1, e2⟩ := e
    exact ih (idle_step h (hl l (by simp)) e1) (fun l hl' => hl l (by simp [hl'])) e2

def times (n : Nat) (l : Lbl) : List Lbl := List.replicate n l

/-- A call of thread 1 until it sleeps. -/
def call1 : List Lbl := .start 1 7 5 :: times 9 (.caller 1)

/-- The loop without a window handles a call and sleeps. -/
def serve (r : Nat) : List Lbl := times 3 .win ++ [.ret r] ++ times 7 .win

/-- A call that meets the hypotheses: thread 1 calls function 7 with context 5,
the thread of the window runs it, the call returns 70. -/
example : (exec init (call1 ++ serve 70 ++ times 6 (.caller 1))).map
    (fun s => (s.rets, s.log)) = some ([(⟨1, 7, 5⟩, 70)], [⟨⟨1, 7, 5⟩, 5, 70⟩]) := by
  decide +kernel

example : ∃ s, Reach plain OneCall s ∧ (s.pc 1).stg = .lock := by
  refine ⟨_, .step (l := .start 1 7 5) .init trivial rfl ⟨rfl, ?_⟩, rfl⟩
  intro t u h1 h2
  simp only [init, upd] at h1 h2
  grind

/-- Steps without new calls and windows. -/
def noNew : Lbl → Prop
  | .start _ _ _ | .create _ | .nest _ _ => False
  | _ => True

/-- Thread `t` waits for a result that does not come. -/
structure Stuck (t : Nat) (s : St) : Prop where
  handler : s.handler = none
  done : s.done = false
  w : s.w.stg = .relock ∨ s.w.stg = .top ∨ s.w.stg = .wait ∨ s.w.stg = .asleep ∨
    s.w.stg = .leave ∨ s.w.stg = .disp
  thr : (s.pc t).stg = .asleep2 ∨ (s.pc t).stg = .relock2 ∨ (s.pc t).stg = .check2 ∨
    (s.pc t).stg = .wait2
  other : ∀ u, u ≠ t → (s.pc u).stg = .idle

theorem stuck_step {t : Nat} {s s' : St} {l : Lbl} (h : Stuck t s) (hl : noNew l)
    (e : step s l = some s') : Stuck t s' ∧ s'.rets = s.rets := by
  have ⟨h1, h2, h3, h4, h5⟩ := h
  cases l <;> simp only [noNew] at hl
  case caller u =>
    simp only [step] at e
    by_cases hu : u = t
    · subst hu
      simp only [callerStep, to] at e
      rcases h4 with g | g | g | g <;> simp only [g] at e
      · simp at e
      · split at e
        · simp only [Option.some.injEq] at e; subst e
          exact ⟨⟨h1, h2, h3, by simp [upd], fun v hv => by simp [upd, hv, h5 v hv]⟩, rfl⟩
        · simp at e
      · simp only [h2, Bool.false_eq_true, if_false, Option.some.injEq] at e; subst e
        exact ⟨⟨h1, rfl, h3, by simp [upd], fun v hv => by simp [upd, hv, h5 v hv]⟩, rfl⟩
      · simp only [Option.some.injEq] at e; subst e
        exact ⟨⟨h1, h2, h3, by simp [upd], fun v hv => by simp [upd, hv, h5 v hv]⟩, rfl⟩
    · simp [callerStep, h5 u hu] at e
  case win =>
    simp only [step, winStep, wto, h1] at e
    rcases h3 with g | g | g | g | g | g <;> simp only [g] at e
    · split at e
      · simp only [Option.some.injEq] at e; subst e
        exact ⟨⟨rfl, h2, by simp, h4, h5⟩, rfl⟩
      · simp at e
    · split at e
      · simp only [Option.some.injEq] at e; subst e
        exact ⟨⟨rfl, h2, by simp, h4, h5⟩, rfl⟩
      · simp only [Option.some.injEq] at e; subst e
        exact ⟨⟨rfl, h2, by simp, h4, h5⟩, rfl⟩
    · simp only [Option.some.injEq] at e; subst e
      exact ⟨⟨rfl, h2, by simp, h4, h5⟩, rfl⟩
    · simp at e
    · simp only [Option.some.injEq] at e; subst e
      exact ⟨⟨rfl, h2, by simp, h4, h5⟩, rfl⟩
    · simp only [if_true, Option.some.injEq] at e; subst e
      exact ⟨⟨h1, h2, by simp [g], h4, h5⟩, rfl⟩
  case ret r =>
    simp only [step] at e
    rcases h3 with g | g | g | g | g | g <;> simp [g] at e
  case spurC u =>
    simp only [step] at e
    by_cases hu : u = t
    · subst hu
      rcases h4 with g | g | g | g <;> simp only [g, reduceCtorEq] at e
      simp only [Option.some.injEq] at e; subst e
      exact ⟨⟨h1, h2, h3, by simp [upd, wakeC, g], fun v hv => by simp [upd, hv, h5 v hv]⟩, rfl⟩
    · simp [h5 u hu] at e
  case spurW =>
    simp only [step] at e
    rcases h3 with g | g | g | g | g | g <;> simp only [g, reduceCtorEq] at e
    simp only [Option.some.injEq] at e; subst e
    exact ⟨⟨h1, h2, by simp [wakeW, g], h4, h5⟩, rfl⟩

theorem stuck_exec {t : Nat} {ls : List Lbl} : ∀ {s s' : St}, Stuck t s → (∀ l ∈ ls, noNew l) →
    exec s ls = some s' → Stuck t s' ∧ s'.rets = s.rets := by
  induction ls with
  | nil => intro s s' h _ e; simp only [exec, Option.some.injEq] at e; subst e; exact ⟨h, rfl⟩
  | cons l ls ih =>
    intro s s' h hl e
    simp only [exec, Option.bind_eq_some_iff] at e
    obtain ⟨s1, e1, e2⟩ := e
    obtain ⟨h1, r1⟩ := stuck_step h (hl l (by simp)) e1
    obtain ⟨h2, r2⟩ := ih h1 (fun l hl' => hl l (by simp [hl'])) e2
    exact ⟨h2, by rw [r2, r1]⟩

/-- Two calls at the same time before there is a window: thread 2 installs its
function before thread 1 has seen that its own is done. -/
def overlap : List Lbl :=
  .start 2 8 6 :: call1 ++ times 3 (.caller 2) ++ serve 70 ++ times 9 (.caller 2) ++
    times 3 (.caller 1) ++ serve 80 ++ times 6 (.caller 1)

/-- Two calls overlap: one returns the value of the function of the other, and
the other never returns. -/
theorem C107_violates_overlap : ∃ s, Reach (fun _ => True) NoWindow s ∧
    (⟨2, 7, 5⟩, 80) ∈ s.rets ∧ RanOnce s ⟨2, 7, 5⟩ 70 ∧ RanOnce s ⟨1, 8, 6⟩ 80 ∧
    (s.pc 2).stg ≠ .idle ∧
    ∀ ls s', (∀ l ∈ ls, noNew l) → exec s ls = some s' → s'.rets = s.rets := by
  have he : ∃ s, exec init overlap = some s := by
    apply Option.isSome_iff_exists.mp; decide +kernel
  obtain ⟨s, hs⟩ := he
  have hv : (exec init overlap).map (fun s => (s.win, s.rets, s.log)) =
      some (false, [(⟨2, 7, 5⟩, 80)], [⟨⟨1, 8, 6⟩, 6, 80⟩, ⟨⟨2, 7, 5⟩, 5, 70⟩]) := by
    decide +kernel
  have hv2 : (exec init overlap).map (fun s => (s.handler, s.done, s.w.stg, (s.pc 1).stg,
      (s.pc 2).stg)) = some (none, false, .asleep, .idle, .relock2) := by
    decide +kernel
  rw [hs] at hv hv2
  simp only [Option.map_some, Option.some.injEq, Prod.mk.injEq] at hv hv2
  obtain ⟨v1, v2, v3⟩ := hv
  obtain ⟨w1, w2, w3, w4, w5⟩ := hv2
  have hstuck : Stuck 2 s := by
    refine ⟨w1, w2, by simp [w3], by simp [w5], ?_⟩
    intro u hu
    by_cases h1 : u = 1
    · subst h1; exact w4
    · refine idle_exec (ls := overlap) rfl ?_ hs
      intro l hl
      have : ∀ l ∈ overlap, begins u l = false := by
        simp [overlap, call1, serve, times, begins]
        exact ⟨by omega, by omega⟩
      exact this l hl
  refine ⟨s, reach_exec .init hs v1, by simp [v2], ?_, ?_, by simp [w5], ?_⟩
  · simp [RanOnce, v3]
  · simp [RanOnce, v3]
  · intro ls s' hl e
    exact (stuck_exec hstuck hl e).2

/-- The window is created by thread 9, and its loop is entered. -/
def window : List Lbl := .create 9 :: times 3 (.caller 9) ++ times 3 .win

/-- With a window and one calling thread, the thread of the window reads the
variables of the handler without the mutex, at the same time as the call writes
them. -/
theorem C107_violates_race : ∃ s, Reach (fun _ => True) (fun _ => True) s ∧
    (∀ u, u ≠ 1 → (s.pc u).stg = .idle) ∧ races s := by
  have he : ∃ s, exec init (window ++ .start 1 7 5 :: times 2 (.caller 1)) = some s := by
    apply Option.isSome_iff_exists.mp; decide +kernel
  obtain ⟨s, hs⟩ := he
  have hv : (exec init (window ++ .start 1 7 5 :: times 2 (.caller 1))).map
      (fun s => (s.w.stg, (s.pc 1).stg, (s.pc 9).stg)) = some (.disp, .setH, .idle) := by
    decide +kernel
  rw [hs] at hv
  simp only [Option.map_some, Option.some.injEq, Prod.mk.injEq] at hv
  obtain ⟨v1, v2, v3⟩ := hv
  refine ⟨s, reach_all .init hs, ?_, Or.inl ⟨1, true, false, ?_, ?_, rfl⟩⟩
  · intro u hu
    by_cases h9 : u = 9
    · subst h9; exact v3
    · refine idle_exec (ls := _) rfl ?_ hs
      simp [window, times, begins]
      exact ⟨by omega, by omega⟩
  · rw [v2]; rfl
  · rw [v1]; rfl

/-- With a window and one calling thread, even if memory is sequentially
consistent: the thread of the window finds the function before the context is
stored, runs it with NULL, and the call never returns. -/
theorem C107_violates_context : ∃ s, Reach (fun _ => True) (fun _ => True) s ∧
    s.log = [⟨⟨1, 7, 5⟩, 0, 70⟩] ∧ (s.pc 1).stg ≠ .idle ∧ s.rets = [] ∧
    ∀ ls s', (∀ l ∈ ls, noNew l) → exec s ls = some s' → s'.rets = [] := by
  let sched := window ++ .start 1 7 5 :: times 3 (.caller 1) ++ times 2 .win ++ [.ret 70] ++
    times 5 .win ++ times 5 (.caller 1)
  have he : ∃ s, exec init sched = some s := by
    apply Option.isSome_iff_exists.mp; decide +kernel
  obtain ⟨s, hs⟩ := he
  have hv : (exec init sched).map (fun s => (s.rets, s.log)) =
      some ([], [⟨⟨1, 7, 5⟩, 0, 70⟩]) := by
    decide +kernel
  have hv2 : (exec init sched).map (fun s => (s.handler, s.done, s.w.stg, (s.pc 1).stg,
      (s.pc 9).stg)) = some (none, false, .disp, .wait2, .idle) := by
    decide +kernel
  rw [hs] at hv hv2
  simp only [Option.map_some, Option.some.injEq, Prod.mk.injEq] at hv hv2
  obtain ⟨v1, v2⟩ := hv
  obtain ⟨w1, w2, w3, w4, w5⟩ := hv2
  have hstuck : Stuck 1 s := by
    refine ⟨w1, w2, by simp [w3], by simp [w4], ?_⟩
    intro u hu
    by_cases h1 : u = 9
    · subst h1; exact w5
    · refine idle_exec (ls := sched) rfl ?_ hs
      simp [sched, window, times, begins]
      exact ⟨by omega, by omega⟩
  refine ⟨s, reach_all .init hs, v2, by simp [w4], v1, ?_⟩
  intro ls s' hl e
  rw [(stuck_exec hstuck hl e).2, v1]

/-- Thread `t` sleeps although its result is there, and nobody wakes it. -/
structure Lost (t : Nat) (s : St) : Prop where
  handler : s.handler = none
  w : s.w.stg = .disp
  thr : (s.pc t).stg = .asleep2
  other : ∀ u, u ≠ t → (s.pc u).stg = .idle

theorem lost_step {t : Nat} {s s' : St} {l : Lbl} (h : Lost t s) (hl : code l)
    (e : step s l = some s') : Lost t s' := by
  have ⟨h1, h2, h3, h4⟩ := h
  cases l <;> simp only [code] at hl
  case caller u =>
    simp only [step, callerStep] at e
    by_cases hu : u = t
    · subst hu; simp [h3] at e
    · simp [h4 u hu] at e
  case win =>
    simp only [step, winStep, h2, h1, if_true, Option.some.injEq] at e
    subst e; exact h
  case ret r => simp [step, h2] at e

theorem lost_exec {t : Nat} {ls : List Lbl} : ∀ {s s' : St}, Lost t s → (∀ l ∈ ls, code l) →
    exec s ls = some s' → Lost t s' := by
  induction ls with
  | nil => intro s s' h _ e; simp only [exec, Option.some.injEq] at e; subst e; exact h
  | cons l ls ih =>
    intro s s' h hl e
    simp only [exec, Option.bind_eq_some_iff] at e
    obtain ⟨s1, e1, e2⟩ := e
    exact ih (lost_step h (hl l (by simp)) e1) (fun l hl' => hl l (by simp [hl'])) e2

/-- With a window and one calling thread: the function is run right, but the
broadcast comes between the test and the wait of the call, which then sleeps
for ever, unless it is woken without a reason or by another call. -/
theorem C107_violates_wakeup : ∃ s, Reach (fun _ => True) (fun _ => True) s ∧
    RanOnce s ⟨1, 7, 5⟩ 70 ∧ s.done = true ∧
    ∀ ls s', (∀ l ∈ ls, code l) → exec s ls = some s' → (s'.pc 1).stg = .asleep2 := by
  let sched := window ++ .start 1 7 5 :: times 8 (.caller 1) ++ times 2 .win ++ [.ret 70] ++
    times 5 .win ++ times 1 (.caller 1)
  have he : ∃ s, exec init sched = some s := by
    apply Option.isSome_iff_exists.mp; decide +kernel
  obtain ⟨s, hs⟩ := he
  have hv : (exec init sched).map (fun s => (s.done, s.log)) =
      some (true, [⟨⟨1, 7, 5⟩, 5, 70⟩]) := by
    decide +kernel
  have hv2 : (exec init sched).map (fun s => (s.handler, s.w.stg, (s.pc 1).stg,
      (s.pc 9).stg)) = some (none, .disp, .asleep2, .idle) := by
    decide +kernel
  rw [hs] at hv hv2
  simp only [Option.map_some, Option.some.injEq, Prod.mk.injEq] at hv hv2
  obtain ⟨v1, v2⟩ := hv
  obtain ⟨w1, w3, w4, w5⟩ := hv2
  have hlost : Lost 1 s := by
    refine ⟨w1, w3, w4, ?_⟩
    intro u hu
    by_cases h1 : u = 9
    · subst h1; exact w5
    · refine idle_exec (ls := sched) rfl ?_ hs
      simp [sched, window, times, begins]
      exact ⟨by omega, by omega⟩
  refine ⟨s, reach_all .init hs, by simp [RanOnce, v2], v1, ?_⟩
  intro ls s' hl e
  exact (lost_exec hlost hl e).thr

/-- The thread of the window waits for the mutex that it has. -/
theorem dead_step {s s' : St} {l : Lbl} (hi : Inv s) (h : s.w.stg = .nLock)
    (hw : s.win = false) (e : step s l = some s') :
    Inv s' ∧ s'.w.stg = .nLock ∧ s'.win = false := by
  have hm : s.mutex = some .win := hi.mW.1 (by rw [h]; rfl)
  have hC : ∀ t, holdsC (s.pc t).stg = false := by
    intro t
    cases hh : holdsC (s.pc t).stg with
    | false => rfl
    | true => rw [(hi.mC t).1 hh] at hm; simp at hm
  have key : s'.w.stg = .nLock ∧ s'.win = false := by
    cases l
    case caller t =>
      have h1 := hC t
      simp only [step, callerStep, to] at e
      split at e <;> rename_i hst <;> simp only [hst, holdsC] at h1
      all_goals (try split at e)
      all_goals (try (simp at e; done))
      all_goals grind
    case win => simp [step, winStep, h, hm] at e
    all_goals
      simp only [step, to] at e
      split at e
      all_goals (try (simp at e; done))
      all_goals (simp only [Option.some.injEq] at e; subst e; grind)
  exact ⟨inv_step hi key.2 e, key⟩

/-- A function that is run before there is a window calls `aa_rx_win_call` (which
is meant to run the inner function at once), or takes the mutex in another way as
`aa_rx_win_create` does: the thread of the window waits for itself for ever,
whatever the other threads do. -/
theorem C107_violates_inner : ∃ s, Reach (fun _ => True) NoWindow s ∧ s.w.stg = .nLock ∧
    ∀ ls s', exec s ls = some s' → s'.w.stg = .nLock := by
  let sched := call1 ++ times 3 .win ++ [.nest 8 6]
  have he : ∃ s, exec init sched = some s := by
    apply Option.isSome_iff_exists.mp; decide +kernel
  obtain ⟨s, hs⟩ := he
  have hv : (exec init sched).map (fun s => (s.win, s.w.stg)) = some (false, .nLock) := by
    decide +kernel
  rw [hs] at hv
  simp only [Option.map_some, Option.some.injEq, Prod.mk.injEq] at hv
  have hr := reach_exec (.init (ok := fun _ => True)) hs hv.1
  have key : ∀ (ls : List Lbl) (s s' : St), Inv s → s.w.stg = .nLock → s.win = false →
      exec s ls = some s' → s'.w.stg = .nLock := by
    intro ls
    induction ls with
    | nil => intro s s' _ h _ e; simp only [exec, Option.some.injEq] at e; subst e; exact h
    | cons l ls ih =>
      intro s s' hi h hw e
      simp only [exec, Option.bind_eq_some_iff] at e
      obtain ⟨s1, e1, e2⟩ := e
      obtain ⟨g1, g2, g3⟩ := dead_step hi h hw e1
      exact ih s1 s' g1 g2 g3 e2
  exact ⟨s, hr, hv.2, fun ls s' e => key ls s s' (reach_inv (fun s h => h) hr) hv.2 hv.1 e⟩

/-- `aa_rx_win_run` waits for a window, another thread creates it: nobody wakes
the loop. -/
theorem C107_violates_create : ∃ s, Reach (fun _ => True) (fun _ => True) s ∧
    s.win = true ∧ s.w.stg = .asleep ∧
    ∀ ls s', (∀ l ∈ ls, code l) → exec s ls = some s' → s'.w.stg = .asleep := by
  let sched := times 3 Lbl.win ++ .create 9 :: times 3 (.caller 9)
  have he : ∃ s, exec init sched = some s := by
    apply Option.isSome_iff_exists.mp; decide +kernel
  obtain ⟨s, hs⟩ := he
  have hv : (exec init sched).map (fun s => (s.win, s.w.stg, (s.pc 9).stg)) =
      some (true, .asleep, .idle) := by
    decide +kernel
  rw [hs] at hv
  simp only [Option.map_some, Option.some.injEq, Prod.mk.injEq] at hv
  obtain ⟨v1, v2, v3⟩ := hv
  have hidle : ∀ u, (s.pc u).stg = .idle := by
    intro u
    by_cases h1 : u = 9
    · subst h1; exact v3
    · refine idle_exec (ls := sched) rfl ?_ hs
      simp [sched, times, begins]
      omega
  have key : ∀ (ls : List Lbl) (s s' : St), (∀ u, (s.pc u).stg = .idle) → s.w.stg = .asleep →
      (∀ l ∈ ls, code l) → exec s ls = some s' → s'.w.stg = .asleep := by
    intro ls
    induction ls with
    | nil => intro s s' _ h _ e; simp only [exec, Option.some.injEq] at e; subst e; exact h
    | cons l ls ih =>
      intro s s' hi h hl e
      simp only [exec, Option.bind_eq_some_iff] at e
      obtain ⟨s1, e1, e2⟩ := e
      have hc := hl l (by simp)
      cases l <;> simp only [code] at hc
      case caller u => simp [step, callerStep, hi u] at e1
      case win => simp [step, winStep, h] at e1
      case ret r => simp [step, h] at e1
  exact ⟨s, reach_all .init hs, v1, v2, fun ls s' hl e => key ls s s' hidle v2 hl e⟩

end Verif.WinCall
