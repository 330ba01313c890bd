import Verif.Proof.WinCall

/-! Calls that do not overlap, before there is a window: results, and why every
call returns. -/

namespace Verif.WinCall

/-- No two threads call at the same time. -/
def Alone (s : St) : Prop :=
  ∀ t u, (s.pc t).stg ≠ .idle → (s.pc u).stg ≠ .idle → t = u

structure Inv2 (s : St) : Prop where
  wS : s.w.stg = .setRes → runsOf s.log s.w.call = [⟨s.w.call, s.w.call.ctx, s.w.r⟩]
  wH : s.w.stg = .clrH → runsOf s.log s.w.call = [⟨s.w.call, s.w.call.ctx, s.res⟩]
  post : ∀ t, cls (s.pc t).stg = .post → s.handler ≠ some (s.pc t).call →
    runsOf s.log (s.pc t).call = [⟨(s.pc t).call, (s.pc t).call.ctx, s.res⟩] ∧
    s.handler = none ∧ (s.done = true ∨ s.w.stg = .clrA ∨ s.w.stg = .setDone)
  take : ∀ t, (s.pc t).stg = .take →
    runsOf s.log (s.pc t).call = [⟨(s.pc t).call, (s.pc t).call.ctx, s.res⟩]
  aft : ∀ t, ((s.pc t).stg = .clrR ∨ (s.pc t).stg = .clrD ∨ (s.pc t).stg = .unlock) →
    runsOf s.log (s.pc t).call = [⟨(s.pc t).call, (s.pc t).call.ctx, (s.pc t).r⟩]
  rets : ∀ e ∈ s.rets, runsOf s.log e.1 = [⟨e.1, e.1.ctx, e.2⟩]
  sleep : ∀ t, (s.pc t).stg = .asleep2 → s.done = true → s.w.stg = .bcast
  wait2 : ∀ t, (s.pc t).stg = .wait2 → s.done = false
  waitW : s.w.stg = .wait → s.handler = none
  sleepW : s.w.stg = .asleep → s.handler = none ∨ ∃ t, cls (s.pc t).stg = .mid
  no1 : ∀ t, (s.pc t).stg ≠ .asleep1 ∧ (s.pc t).stg ≠ .relock1 ∧ (s.pc t).stg ≠ .wait1

theorem inv2_init : Inv2 init := by
  constructor <;> simp [init, cls]

set_option maxHeartbeats 1000000 in
theorem inv2_caller {s s' : St} {t : Nat} (h : Inv s) (h2 : Inv2 s) (ha : Alone s)
    (e : callerStep s t = some s') : Inv2 s' := by
  have ⟨a1,a2,a3,a4,a5,a6,a7,a8,a9,a10,a11,a12,a13,a14,a15,a16,a17,a18,a19,a20⟩ := h
  have ⟨c1,c2,c3,c4,c5,c6,c7,c10,c11,c8,c9⟩ := h2
  have ht : (s.pc t).stg ≠ .idle := by
    intro hi; simp [callerStep, hi] at e
  have ho : ∀ u, u ≠ t → (s.pc u).stg = .idle := by
    intro u hu
    by_cases hi : (s.pc u).stg = .idle
    · exact hi
    · exact absurd (ha u t hi ht) hu
  have hoc : ∀ u, u ≠ t → cls (s.pc u).stg = .none := by
    intro u hu; rw [ho u hu]; rfl
  have how : ∀ u, u ≠ t → wakeC (s.pc u) = s.pc u := by
    intro u hu; simp [wakeC, ho u hu]
  have b3 := a3 t
  have b9 : ∀ c, s.handler = some c → (s.pc t).call = c ∧
      (cls (s.pc t).stg = .mid ∨ cls (s.pc t).stg = .post) := by
    intro c hc
    obtain ⟨u, hu1, hu2⟩ := a9 c hc
    by_cases hut : u = t
    · subst hut; exact ⟨hu1, hu2⟩
    · rw [hoc u hut] at hu2; simp at hu2
  have b12 := a12 t
  have b13 := a13 t
  have d3 := c3 t
  have d4 := c4 t
  have d5 := c5 t
  have d7 := c7 t
  have d9 := c9 t
  have d10 := c10 t
  clear a3 a5 a6 a7 a8 a9 a10 a11 a12 a13 a14 a15 a16 h h2 ha
  unfold callerStep at e
  split at e <;> rename_i hst <;> simp only [hst, cls, holdsC] at b3 b9 b12 b13 d3 d4 d5 d7 d9 d10
  all_goals (try split at e)
  all_goals (try (simp at e; done))
  all_goals (try (simp only [Option.some.injEq] at e; subst e; constructor <;> simp only [to, upd_eq] <;> first | assumption | grind [cls, holdsC, holdsW, wakeC_call, wakeC_cls, wakeC_stg, wakeW_call, wakeW_r, wakeW_stg]))
  all_goals
    exfalso
    cases hc : s.handler with
    | none => grind
    | some c => have := b9 c hc; simp at this

set_option maxHeartbeats 1000000 in
theorem inv2_win {s s' : St} (h : Inv s) (h2 : Inv2 s)
    (e : winStep s = some s') : Inv2 s' := by
  have ⟨a1,a2,a3,a4,a5,a6,a7,a8,a9,a10,a11,a12,a13,a14,a15,a16,a17,a18,a19,a20⟩ := h
  have ⟨c1,c2,c3,c4,c5,c6,c7,c10,c11,c8,c9⟩ := h2
  have hm : ∀ t, s.mutex = some .win → holdsC (s.pc t).stg = false := by
    intro t hm
    cases hh : holdsC (s.pc t).stg with
    | false => rfl
    | true => rw [(a3 t).1 hh] at hm; simp at hm
  have how : s.mutex = some .win → ∀ t, (s.pc t).stg ≠ .take ∧ (s.pc t).stg ≠ .clrR ∧ (s.pc t).stg ≠ .wait2 ∧
      (s.pc t).stg ≠ .clrD ∧ (s.pc t).stg ≠ .unlock ∧ cls (s.pc t).stg ≠ .mid := by
    intro hw t
    have := hm t hw
    revert this
    cases (s.pc t).stg <;> simp [holdsC, cls]
  clear a5 a6 a7 a10 a11 a14 a15 a16 h h2
  unfold winStep at e
  split at e <;> rename_i hst <;> simp only [hst, holdsW, true_iff] at a4 a13 a17 a18 a19 a20 c1 c2 c3 c7 c8 c11
  all_goals (try split at e)
  all_goals (try split at e)
  all_goals (try (simp at e; done))
  all_goals (try (simp only [Option.some.injEq] at e; subst e; constructor <;> simp only [wto] <;> first | assumption | grind [cls, holdsC, holdsW, wakeC_call, wakeC_cls, wakeC_holds, wakeC_stg, wakeW_call, wakeW_arg, wakeW_disp, wakeW_stg, wakeC_r]))
  case h_6.isTrue => exact absurd hst a2.2.1
  simp only [Option.some.injEq] at e; subst e
  have hna : ∀ t, (wakeC (s.pc t)).stg ≠ .asleep2 ∧ (wakeC (s.pc t)).stg ≠ .asleep1 := by
    intro t; unfold wakeC; split <;> simp_all
  have hnr : ∀ t, (wakeC (s.pc t)).stg ≠ .relock1 := by
    intro t
    have := c9 t
    unfold wakeC; split <;> simp_all
  constructor <;> simp only [wakeC_call, wakeC_r, wakeC_cls] <;>
    first | assumption | grind [wakeC_stg]

set_option maxHeartbeats 1000000 in
theorem inv2_rest {s s' : St} {l : Lbl} (h : Inv s) (h2 : Inv2 s)
    (hl : l ≠ .win) (hc : ∀ t, l ≠ .caller t)
    (e : step s l = some s') : Inv2 s' := by
  have ⟨a1,a2,a3,a4,a5,a6,a7,a8,a9,a10,a11,a12,a13,a14,a15,a16,a17,a18,a19,a20⟩ := h
  have ⟨c1,c2,c3,c4,c5,c6,c7,c10,c11,c8,c9⟩ := h2
  cases l
  case win => exact absurd rfl hl
  case caller t => exact absurd rfl (hc t)
  case start t fn ctx =>
    simp only [step] at e
    split at e
    · simp only [Option.some.injEq] at e; subst e
      constructor <;> simp only [upd_eq]
      all_goals first | assumption | grind [cls, holdsC, holdsW]
    · simp at e
  case create t =>
    simp only [step] at e
    split at e
    · simp only [Option.some.injEq] at e; subst e
      constructor <;> simp only [to, upd_eq] <;> first | assumption | grind [cls, holdsC, holdsW]
    · simp at e
  case ret r =>
    simp only [step] at e
    split at e <;> rename_i hst <;> simp only [hst, holdsW] at a4 a13 a17 a18 a19 a20 c1 c2 c3 c7 c8 c11
    · simp only [Option.some.injEq] at e; subst e
      obtain ⟨q1, q2, q3⟩ := a18 (by simp)
      have key : ∀ c x, runsOf s.log c = [x] → runsOf (⟨s.w.call, s.w.arg, r⟩ :: s.log) c = [x] := by
        intro c x hx
        by_cases hc : s.w.call.id = c.id
        · have : runsOf s.log c = runsOf s.log s.w.call := by simp only [runsOf, hc]
          rw [this, q3] at hx; simp at hx
        · rw [runsOf_cons_ne hc, hx]
      have key2 : runsOf (⟨s.w.call, s.w.arg, r⟩ :: s.log) s.w.call = [⟨s.w.call, s.w.call.ctx, r⟩] := by
        rw [runsOf_cons_eq, q3, q2]
      constructor <;> first | assumption | grind [cls, holdsC, holdsW]
    · simp at a2; grind
    · simp at e
  case nest fn ctx =>
    simp only [step] at e
    split at e <;> rename_i hst
    · simp only [Option.some.injEq] at e; subst e
      constructor <;> first | assumption | grind [cls, holdsC, holdsW]
    · simp at e
  case spurC t =>
    simp only [step] at e
    split at e <;> rename_i hst
    · exact absurd hst (c9 t).1
    · simp only [Option.some.injEq] at e; subst e
      have hk : wakeC (s.pc t) = ⟨.relock2, (s.pc t).call, (s.pc t).r⟩ := by simp [wakeC, hst]
      constructor <;> simp only [upd_eq, hk] <;> first | assumption | grind [cls]
    · simp at e
  case spurW =>
    simp only [step] at e
    split at e <;> rename_i hst
    · simp only [Option.some.injEq] at e; subst e
      constructor <;> first | assumption | grind [holdsW, wakeW_call, wakeW_arg, wakeW_disp, wakeW_stg]
    · simp at e

theorem inv2_step {s s' : St} {l : Lbl} (h : Inv s) (h2 : Inv2 s) (ha : Alone s)
    (e : step s l = some s') : Inv2 s' := by
  by_cases h1 : l = .win
  · subst h1; exact inv2_win h h2 e
  · by_cases h3 : ∃ t, l = .caller t
    · obtain ⟨t, rfl⟩ := h3; exact inv2_caller h h2 ha e
    · exact inv2_rest h h2 h1 (fun t ht => h3 ⟨t, ht⟩) e

end Verif.WinCall
