import Verif.Model.WinCall

/-! Invariants of the calls in the thread of the window before there is a window. -/

namespace Verif.WinCall

/-- The threads that have the mutex. -/
def holdsC : Stg → Bool
  | .check | .setH | .setA | .setR | .setD | .bcast | .check2 | .take | .clrR | .clrD
  | .wait1 | .wait2 | .unlock | .cSet | .cUnlock => true
  | _ => false

def holdsW : WStg → Bool
  | .relock | .asleep | .disp => false
  | _ => true

inductive Cls where
  | none | pre | mid | post | aft
deriving DecidableEq

def cls : Stg → Cls
  | .idle | .cLock | .cSet | .cUnlock => .none
  | .lock | .check | .wait1 | .asleep1 | .relock1 | .setH => .pre
  | .setA | .setR | .setD | .bcast => .mid
  | .check2 | .wait2 | .asleep2 | .relock2 => .post
  | .take | .clrR | .clrD | .unlock => .aft

/-- The runs of the function of a call. -/
def runsOf (log : List Ran) (c : Call) : List Ran := log.filter fun e => e.call.id = c.id

def Once (log : List Ran) (c : Call) : Prop := ∃ r, runsOf log c = [⟨c, c.ctx, r⟩]

theorem runsOf_cons_ne {log : List Ran} {c d : Call} {a r : Nat} (h : d.id ≠ c.id) :
    runsOf (⟨d, a, r⟩ :: log) c = runsOf log c := by
  simp [runsOf, h]

theorem runsOf_cons_eq {log : List Ran} {c : Call} {a r : Nat} :
    runsOf (⟨c, a, r⟩ :: log) c = ⟨c, a, r⟩ :: runsOf log c := by
  simp [runsOf]

structure Inv (s : St) : Prop where
  disp : s.w.disp = false
  wst : s.w.stg ≠ .leave ∧ s.w.stg ≠ .disp ∧ s.w.stg ≠ .nRun ∧ s.w.stg ≠ .nUnlock
  mC : ∀ t, holdsC (s.pc t).stg = true ↔ s.mutex = some (.thread t)
  mW : holdsW s.w.stg = true ↔ s.mutex = some .win
  fresh : ∀ t, cls (s.pc t).stg ≠ .none → (s.pc t).call.id < s.next
  freshL : ∀ e ∈ s.log, e.call.id < s.next
  freshR : ∀ e ∈ s.rets, e.1.id < s.next
  uniq : ∀ t u, cls (s.pc t).stg ≠ .none → cls (s.pc u).stg ≠ .none →
    (s.pc t).call.id = (s.pc u).call.id → t = u
  own : ∀ c, s.handler = some c → ∃ t, (s.pc t).call = c ∧
    (cls (s.pc t).stg = .mid ∨ cls (s.pc t).stg = .post)
  setH : ∀ t, (s.pc t).stg = .setH → s.handler = none
  pre : ∀ t, cls (s.pc t).stg = .pre → runsOf s.log (s.pc t).call = []
  mid : ∀ t, cls (s.pc t).stg = .mid → s.handler = some (s.pc t).call ∧
    runsOf s.log (s.pc t).call = [] ∧ ((s.pc t).stg ≠ .setA → s.arg = (s.pc t).call.ctx) ∧
    ((s.pc t).stg = .bcast → s.done = false)
  post : ∀ t, cls (s.pc t).stg = .post →
    (s.handler = some (s.pc t).call ∧ s.done = false ∧ s.arg = (s.pc t).call.ctx ∧
      (runsOf s.log (s.pc t).call = [] ∨
        ((s.w.stg = .setRes ∨ s.w.stg = .clrH) ∧ Once s.log (s.pc t).call))) ∨
    (s.handler ≠ some (s.pc t).call ∧ Once s.log (s.pc t).call)
  aft : ∀ t, cls (s.pc t).stg = .aft → Once s.log (s.pc t).call
  ran : ∀ e ∈ s.rets, Once s.log e.1
  all : ∀ e ∈ s.log, Once s.log e.call
  wF : s.w.stg = .fetch → ∃ c, s.handler = some c
  wR : (s.w.stg = .run ∨ s.w.stg = .nLock) → s.handler = some s.w.call ∧
    s.w.arg = s.w.call.ctx ∧ runsOf s.log s.w.call = []
  wS : (s.w.stg = .setRes ∨ s.w.stg = .clrH) → s.handler = some s.w.call ∧
    Once s.log s.w.call
  wC : (s.w.stg = .clrA ∨ s.w.stg = .setDone ∨ s.w.stg = .bcast) → s.handler = none

theorem inv_init : Inv init := by
  constructor <;> simp [init, cls, holdsC, holdsW]

theorem wakeC_call (p : Caller) : (wakeC p).call = p.call := by
  unfold wakeC; split <;> rfl
theorem wakeC_r (p : Caller) : (wakeC p).r = p.r := by
  unfold wakeC; split <;> rfl
theorem wakeC_cls (p : Caller) : cls (wakeC p).stg = cls p.stg := by
  unfold wakeC; split <;> simp_all [cls]
theorem wakeC_holds (p : Caller) : holdsC (wakeC p).stg = holdsC p.stg := by
  unfold wakeC; split <;> simp_all [holdsC]
theorem wakeC_stg (p : Caller) : (wakeC p).stg = p.stg ∨
    (wakeC p).stg = .relock1 ∨ (wakeC p).stg = .relock2 := by
  unfold wakeC; split <;> simp
theorem wakeW_call (p : Window) : (wakeW p).call = p.call := by
  unfold wakeW; split <;> rfl
theorem wakeW_arg (p : Window) : (wakeW p).arg = p.arg := by
  unfold wakeW; split <;> rfl
theorem wakeW_r (p : Window) : (wakeW p).r = p.r := by
  unfold wakeW; split <;> rfl
theorem wakeW_disp (p : Window) : (wakeW p).disp = p.disp := by
  unfold wakeW; split <;> rfl
theorem wakeW_stg (p : Window) : ((wakeW p).stg = p.stg ∧ p.stg ≠ .asleep) ∨
    (p.stg = .asleep ∧ (wakeW p).stg = .relock) := by
  unfold wakeW; split <;> simp_all

theorem upd_eq (f : Nat → Caller) (t : Nat) (p : Caller) (u : Nat) :
    upd f t p u = if u = t then p else f u := rfl

theorem mid_holds {g : Stg} (h : cls g = .mid) : holdsC g = true := by
  cases g <;> simp_all [cls, holdsC]

set_option maxHeartbeats 1000000 in
theorem inv_caller {s s' : St} {t : Nat} (h : Inv s) (hw : s'.win = false)
    (e : callerStep s t = some s') : Inv s' := by
  have ⟨a1,a2,a3,a4,a5,a6,a7,a8,a9,a10,a11,a12,a13,a14,a15,a16,a17,a18,a19,a20⟩ := h
  have b3 := a3 t
  have b5 := a5 t
  have b11 := a11 t
  have b12 := a12 t
  have b13 := a13 t
  have b14 := a14 t
  unfold callerStep at e
  split at e <;> rename_i hst <;> simp only [hst, cls, holdsC] at b3 b5 b11 b12 b13 b14
  all_goals (try split at e)
  all_goals (try (simp at e; done))
  all_goals (try (simp only [Option.some.injEq] at e; subst e; constructor <;> simp only [to, upd_eq] <;> first | assumption | grind [cls, holdsC, holdsW, wakeC_call, wakeC_cls, wakeC_holds, wakeC_stg, wakeW_call, wakeW_arg, wakeW_disp, wakeW_stg]))

set_option maxHeartbeats 1000000 in
theorem inv_win {s s' : St} (h : Inv s) (hw0 : s.win = false)
    (e : winStep s = some s') : Inv s' := by
  have ⟨a1,a2,a3,a4,a5,a6,a7,a8,a9,a10,a11,a12,a13,a14,a15,a16,a17,a18,a19,a20⟩ := h
  unfold winStep at e
  split at e <;> rename_i hst <;> simp only [hst, holdsW] at a4 a13 a17 a18 a19 a20
  all_goals (try split at e)
  all_goals (try split at e)
  all_goals (try (simp at e; done))
  all_goals (try (simp only [Option.some.injEq] at e; subst e; constructor <;> simp only [wto] <;> first | assumption | grind [cls, holdsC, holdsW, wakeC_call, wakeC_cls, wakeC_holds, wakeC_stg, wakeW_call, wakeW_arg, wakeW_disp, wakeW_stg]))
  case h_6.isTrue => exact absurd hst a2.2.1
  case h_10 =>
    simp only [Option.some.injEq] at e; subst e
    obtain ⟨q1, q2⟩ := a19 (by simp)
    constructor <;> simp only [wto]
    case post =>
      intro u hu
      refine Or.inr ⟨by simp, ?_⟩
      rcases a13 u hu with ⟨g1, _, _, g | g⟩ | g
      · rw [q1] at g1
        simp only [Option.some.injEq] at g1
        rw [← g1]; exact q2
      · exact g.2
      · exact g.2
    case mid =>
      intro u hu
      have hm := (a3 u).1 (mid_holds hu)
      rw [hm] at a4
      simp at a4
    all_goals first | assumption | grind [cls, holdsC, holdsW]

set_option maxHeartbeats 1000000 in
theorem inv_rest {s s' : St} {l : Lbl} (h : Inv s)
    (hl : l ≠ .win) (hc : ∀ t, l ≠ .caller t)
    (e : step s l = some s') : Inv s' := by
  have ⟨a1,a2,a3,a4,a5,a6,a7,a8,a9,a10,a11,a12,a13,a14,a15,a16,a17,a18,a19,a20⟩ := h
  cases l
  case win => exact absurd rfl hl
  case caller t => exact absurd rfl (hc t)
  case start t fn ctx =>
    simp only [step] at e
    split at e
    · simp only [Option.some.injEq] at e; subst e
      constructor <;> simp only [upd_eq]
      case pre =>
        intro u hu
        by_cases hut : u = t
        · simp only [hut, if_true]
          simp only [runsOf, List.filter_eq_nil_iff]
          intro x hx
          have := a6 x hx
          simp; omega
        · simp only [hut, if_false] at hu ⊢; exact a11 u hu
      all_goals first | assumption | grind [cls, holdsC, holdsW]
    · simp at e
  case create t =>
    simp only [step] at e
    split at e
    · simp only [Option.some.injEq] at e; subst e
      constructor <;> simp only [to, upd_eq] <;> first | assumption | grind [cls, holdsC, holdsW]
    · simp at e
  case ret r =>
    simp only [step] at e
    split at e <;> rename_i hst <;> simp only [hst, holdsW] at a4 a13 a17 a18 a19 a20
    · simp only [Option.some.injEq] at e; subst e
      obtain ⟨q1, q2, q3⟩ := a18 (by simp)
      have key : ∀ c : Call, c.id = s.w.call.id ∨ runsOf (⟨s.w.call, s.w.arg, r⟩ :: s.log) c = runsOf s.log c := by
        intro c
        by_cases hc : s.w.call.id = c.id
        · exact Or.inl hc.symm
        · exact Or.inr (runsOf_cons_ne hc)
      have key2 : ∀ c : Call, c = s.w.call → Once (⟨s.w.call, s.w.arg, r⟩ :: s.log) c := by
        intro c hc
        subst hc
        exact ⟨r, by rw [runsOf_cons_eq, q3, q2]⟩
      have key3 : ∀ c : Call, Once s.log c → Once (⟨s.w.call, s.w.arg, r⟩ :: s.log) c := by
        intro c ⟨r', hr⟩
        rcases key c with hc | hc
        · have : runsOf s.log c = runsOf s.log s.w.call := by simp only [runsOf, hc]
          rw [this, q3] at hr; simp at hr
        · exact ⟨r', by rw [hc, hr]⟩
      obtain ⟨u, hu1, hu2⟩ := a9 _ q1
      have key4 : ∀ t, cls (s.pc t).stg ≠ .none → t ≠ u → runsOf (⟨s.w.call, s.w.arg, r⟩ :: s.log) (s.pc t).call = runsOf s.log (s.pc t).call := by
        intro t ht htu
        rcases key (s.pc t).call with hc | hc
        · exact absurd (a8 t u ht (by rcases hu2 with h2 | h2 <;> simp [h2]) (by rw [hu1]; exact hc)) htu
        · exact hc
      have hu3 : cls (s.pc u).stg = .post := by
        rcases hu2 with h2 | h2
        · exfalso
          have := a3 u
          revert h2 this
          cases (s.pc u).stg <;> grind [cls, holdsC]
        · exact h2
      constructor <;> first | assumption | grind [cls, holdsC, holdsW]
    · simp at a2; grind
    · simp at e
  case nest fn ctx =>
    simp only [step] at e
    split at e <;> rename_i hst
    · simp only [Option.some.injEq] at e; subst e
      constructor <;> first | assumption | grind [cls, holdsC, holdsW]
    · simp at e
  case spurC t =>
    simp only [step] at e
    split at e <;> rename_i hst
    · simp only [Option.some.injEq] at e; subst e
      constructor <;> simp only [upd_eq] <;> first | assumption | grind [cls, holdsC, holdsW, wakeC_call, wakeC_cls, wakeC_holds, wakeC_stg]
    · simp only [Option.some.injEq] at e; subst e
      constructor <;> simp only [upd_eq] <;> first | assumption | grind [cls, holdsC, holdsW, wakeC_call, wakeC_cls, wakeC_holds, wakeC_stg]
    · simp at e
  case spurW =>
    simp only [step] at e
    split at e <;> rename_i hst
    · simp only [Option.some.injEq] at e; subst e
      constructor <;> first | assumption | grind [holdsW, wakeW_call, wakeW_arg, wakeW_disp, wakeW_stg]
    · simp at e

theorem step_win {s s' : St} {l : Lbl} (e : step s l = some s') (h : s.win = true) :
    s'.win = true := by
  cases l <;> simp only [step, callerStep, winStep, to, wto] at e <;> grind

theorem inv_step {s s' : St} {l : Lbl} (h : Inv s) (hw : s'.win = false)
    (e : step s l = some s') : Inv s' := by
  have hw0 : s.win = false := by
    cases hs : s.win with
    | false => rfl
    | true => rw [step_win e hs] at hw; exact absurd hw (by simp)
  by_cases h1 : l = .win
  · subst h1; exact inv_win h hw0 e
  · by_cases h2 : ∃ t, l = .caller t
    · obtain ⟨t, rfl⟩ := h2; exact inv_caller h hw e
    · exact inv_rest h h1 (fun t ht => h2 ⟨t, ht⟩) e

end Verif.WinCall
