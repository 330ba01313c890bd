import Verif.Proof.WinCall2

/-! Calls that do not overlap return: there is always a step, and there are
only finitely many. -/

namespace Verif.WinCall

/-- Steps of the code itself: no new call, no spurious wake-up, no inner call. -/
def own : Lbl → Prop
  | .caller _ | .win | .ret _ => True
  | _ => False

theorem progress {s : St} {t : Nat} (h : Inv s) (h2 : Inv2 s) (ha : Alone s)
    (ht : cls (s.pc t).stg ≠ .none) (hn : s.w.stg ≠ .nLock) (hwin : s.win = false) :
    ∃ l s', own l ∧ step s l = some s' := by
  have hoth : ∀ u, (s.pc u).stg ≠ .idle → u = t := by
    intro u hu
    exact ha u t hu (by intro hi; rw [hi] at ht; exact ht rfl)
  have b3 := h.mC t
  have b4 := h.mW
  cases hm : s.mutex with
  | some o =>
    cases o with
    | thread u =>
      have hu : holdsC (s.pc u).stg = true := (h.mC u).2 hm
      have hut : u = t := hoth u (by intro hi; rw [hi] at hu; simp [holdsC] at hu)
      subst hut
      refine ⟨.caller u, ?_⟩
      simp only [step, callerStep, own, true_and]
      revert hu
      cases (s.pc u).stg <;> simp [holdsC] <;> split <;> simp
    | win =>
      have hu : holdsW s.w.stg = true := h.mW.2 hm
      by_cases hr : s.w.stg = .run
      · exact ⟨.ret 0, _, trivial, by simp only [step, hr]; rfl⟩
      · refine ⟨.win, ?_⟩
        simp only [step, winStep, own, true_and]
        have hw := h.wst
        have hF := h.wF
        revert hu hr hw hn hF
        cases s.w.stg <;> simp [holdsW, hwin]
        · cases s.handler <;> simp
        · intro x hx; simp [hx]
  | none =>
    have hc : holdsC (s.pc t).stg = false := by
      cases hh : holdsC (s.pc t).stg with
      | false => rfl
      | true => rw [b3.1 hh] at hm; simp at hm
    have hw : holdsW s.w.stg = false := by
      cases hh : holdsW s.w.stg with
      | false => rfl
      | true => rw [b4.1 hh] at hm; simp at hm
    by_cases hs : (s.pc t).stg = .asleep2
    · refine ⟨.win, ?_⟩
      simp only [step, winStep, own, true_and]
      have hst := h.wst
      have hsl : s.w.stg ≠ .asleep := by
        intro hw
        have hnone : s.handler = none := by
          rcases h2.sleepW hw with h' | ⟨u, hu⟩
          · exact h'
          · have := hoth u (by intro hi; rw [hi] at hu; simp [cls] at hu)
            subst this
            rw [hs] at hu; simp [cls] at hu
        have hp := h2.post t (by rw [hs]; rfl) (by rw [hnone]; simp)
        rcases hp.2.2 with hd | hd | hd
        · have := h2.sleep t hs hd; rw [hw] at this; simp at this
        · rw [hw] at hd; simp at hd
        · rw [hw] at hd; simp at hd
      revert hw hst hsl
      cases s.w.stg <;> simp [holdsW, hm]
    · refine ⟨.caller t, ?_⟩
      simp only [step, callerStep, own, true_and]
      have h1 := h2.no1 t
      revert hc h1 hs ht
      cases (s.pc t).stg <;> simp [holdsC, cls, hm]

def cIdx : Stg → Nat
  | .lock => 20 | .check => 19 | .setH => 18 | .setA => 17 | .setR => 16 | .setD => 15
  | .bcast => 14 | .relock2 => 13 | .check2 => 12 | .wait2 => 11 | .take => 11 | .clrR => 10 | .clrD => 9
  | .unlock => 8 | .asleep2 => 7 | _ => 0

def wIdx : WStg → Nat
  | .relock => 20 | .top => 19 | .wait => 1 | .fetch => 18 | .run => 17 | .setRes => 16 | .clrH => 15
  | .clrA => 14 | .setDone => 13 | .bcast => 12 | _ => 0

def kIdx (s : St) (t : Nat) : Nat :=
  (match cls (s.pc t).stg with | .pre => 2 | .mid => 1 | _ => 0) +
  if s.handler ≠ none ∨ s.w.stg = .clrA ∨ s.w.stg = .setDone ∨ s.w.stg = .bcast then 1 else 0

/-- Steps that a call can still take part in. -/
def mu (s : St) (t : Nat) : Nat := 50 * kIdx s t + cIdx (s.pc t).stg + wIdx s.w.stg

theorem mu_lt (s : St) (t : Nat) : mu s t < 200 := by
  have h1 : cIdx (s.pc t).stg ≤ 20 := by cases (s.pc t).stg <;> simp [cIdx]
  have h2 : wIdx s.w.stg ≤ 20 := by cases s.w.stg <;> simp [wIdx]
  have h3 : kIdx s t ≤ 3 := by
    unfold kIdx
    cases cls (s.pc t).stg <;> simp only <;> split <;> omega
  unfold mu; omega

theorem wakeC_wIdx (w : Window) : wIdx (wakeW w).stg ≤ 20 := by
  cases (wakeW w).stg <;> simp [wIdx]

theorem mu_win {s s' : St} {t : Nat} (h : Inv s) (hwin : s.win = false)
    (ht : cls (s.pc t).stg ≠ .none) (e : winStep s = some s') :
    mu s' t < mu s t ∧ (s'.pc t).call = (s.pc t).call ∧ cls (s'.pc t).stg ≠ .none := by
  have hC := h.wC
  have hS := h.wS
  have hM := h.mW
  have hd := h.disp
  have hd2 := h.wst
  have hi : cIdx (wakeC (s.pc t)).stg ≤ cIdx (s.pc t).stg + 6 := by
    unfold wakeC; split <;> simp_all [cIdx, cls]
  unfold winStep at e
  split at e <;> rename_i hst <;> simp only [hst, holdsW] at hC hS hd2 hM
  all_goals (try split at e)
  all_goals (try split at e)
  all_goals (try (simp at e; done))
  all_goals (simp only [Option.some.injEq] at e; subst e)
  all_goals (simp only [mu, kIdx, wto, hst, wIdx, wakeC_cls, wakeC_call]; grind [wIdx])

theorem mu_caller {s s' : St} {t : Nat} (h : Inv s) (h2 : Inv2 s) (ha : Alone s)
    (ht : cls (s.pc t).stg ≠ .none) (e : callerStep s t = some s') :
    (mu s' t < mu s t ∧ (s'.pc t).call = (s.pc t).call ∧ cls (s'.pc t).stg ≠ .none) ∨
    ((s.pc t).call, (s.pc t).r) ∈ s'.rets := by
  have hw := wakeC_wIdx s.w
  have hws := wakeW_stg s.w
  have h12 := h.mid t
  have hno := h2.no1 t
  have hown := h.own
  have hoth : ∀ u, cls (s.pc u).stg ≠ .none → u = t := by
    intro u hu
    exact ha u t (by intro hi; rw [hi] at hu; exact hu rfl) (by intro hi; rw [hi] at ht; exact ht rfl)
  unfold callerStep at e
  split at e <;> rename_i hst <;> simp only [hst, cls] at h12 ht hno
  all_goals (try split at e)
  all_goals (try (simp at e; done))
  all_goals (simp only [Option.some.injEq] at e; subst e)
  all_goals (simp only [mu, kIdx, to, upd_eq, if_true, hst, cIdx, cls, wakeC_call]; grind [cIdx, wIdx, cls])
theorem mu_ret {s s' : St} {t r : Nat} (h : Inv s)
    (ht : cls (s.pc t).stg ≠ .none) (e : step s (.ret r) = some s') :
    mu s' t < mu s t ∧ (s'.pc t).call = (s.pc t).call ∧ cls (s'.pc t).stg ≠ .none := by
  have hd2 := h.wst
  simp only [step] at e
  split at e <;> rename_i hst <;> (try simp only [hst] at hd2)
  all_goals (try (simp at e; done))
  all_goals (simp only [Option.some.injEq] at e; subst e)
  all_goals (simp only [mu, kIdx, hst, wIdx]; grind)

theorem rets_mono {s s' : St} {l : Lbl} (e : step s l = some s') {x} (hx : x ∈ s.rets) :
    x ∈ s'.rets := by
  cases l <;> simp only [step, callerStep, winStep, to, wto] at e <;> grind

theorem rets_mono_exec {ls : List Lbl} : ∀ {s s' : St}, exec s ls = some s' → ∀ {x}, x ∈ s.rets →
    x ∈ s'.rets := by
  induction ls with
  | nil => intro s s' e x hx; simp only [exec, Option.some.injEq] at e; subst e; exact hx
  | cons l ls ih =>
    intro s s' e x hx
    simp only [exec, Option.bind_eq_some_iff] at e
    obtain ⟨s1, e1, e2⟩ := e
    exact ih e2 (rets_mono e1 hx)

/-- Steps of the code itself keep what the proofs need. -/
structure Calm (s : St) : Prop where
  inv : Inv s
  inv2 : Inv2 s
  alone : Alone s
  win : s.win = false
  noNest : s.w.stg ≠ .nLock
  noCreate : ∀ t, (s.pc t).stg ≠ .cLock ∧ (s.pc t).stg ≠ .cSet ∧ (s.pc t).stg ≠ .cUnlock

theorem wakeW_nLock (w : Window) (h : w.stg ≠ .nLock) : (wakeW w).stg ≠ .nLock := by
  rcases wakeW_stg w with ⟨h1, _⟩ | ⟨_, h1⟩ <;> rw [h1]
  · exact h
  · simp

theorem calm_step {s s' : St} {l : Lbl} (h : Calm s) (ho : own l) (e : step s l = some s') :
    Calm s' := by
  have hnc := h.noCreate
  have hwin : s'.win = false := by
    have hw := h.win
    cases l <;> simp only [own] at ho <;> simp only [step, callerStep, winStep, to, wto] at e
    all_goals grind
  have hst : ∀ t, ((s'.pc t).stg ≠ .idle → (s.pc t).stg ≠ .idle) ∧
      ((s'.pc t).stg ≠ .cLock ∧ (s'.pc t).stg ≠ .cSet ∧ (s'.pc t).stg ≠ .cUnlock) := by
    intro t
    have h1 := hnc t
    have hk : ∀ u, ((wakeC (s.pc u)).stg = .idle → (s.pc u).stg = .idle) := by
      intro u; unfold wakeC; split <;> simp
    have hk' : ∀ u, ((s.pc u).stg = .idle → (wakeC (s.pc u)).stg = .idle) := by
      intro u hu; unfold wakeC; split <;> simp_all
    cases l <;> simp only [own] at ho <;> simp only [step, callerStep, winStep, to, wto] at e
    · split at e <;> rename_i hst
      all_goals (try split at e)
      all_goals (try (simp at e; done))
      all_goals (simp only [Option.some.injEq] at e; subst e; simp only [upd_eq]; grind [wakeC_stg])
    · split at e <;> rename_i hst
      all_goals (try split at e)
      all_goals (try split at e)
      all_goals (try (simp at e; done))
      all_goals (simp only [Option.some.injEq] at e; subst e; grind [wakeC_stg])
    · split at e <;> rename_i hst
      all_goals (try (simp at e; done))
      all_goals (simp only [Option.some.injEq] at e; subst e; grind)
  refine ⟨inv_step h.inv hwin e, inv2_step h.inv h.inv2 h.alone e, ?_, hwin, ?_, fun t => (hst t).2⟩
  · intro t u h1 h2
    exact h.alone t u ((hst t).1 h1) ((hst u).1 h2)
  · have hn := h.noNest
    have := wakeW_nLock s.w hn
    cases l <;> simp only [own] at ho <;> simp only [step, callerStep, winStep, to, wto] at e
    all_goals grind

/-- A call has returned, or goes on and can take fewer and fewer steps. -/
theorem live {ls : List Lbl} : ∀ {s s' : St} {t : Nat}, Calm s → (∀ l ∈ ls, own l) →
    exec s ls = some s' → cls (s.pc t).stg ≠ .none →
    (∃ r, ((s.pc t).call, r) ∈ s'.rets) ∨
    (Calm s' ∧ cls (s'.pc t).stg ≠ .none ∧ (s'.pc t).call = (s.pc t).call ∧
      mu s' t + ls.length ≤ mu s t) := by
  induction ls with
  | nil =>
    intro s s' t h _ e ht
    simp only [exec, Option.some.injEq] at e
    subst e
    exact Or.inr ⟨h, ht, rfl, by simp⟩
  | cons l ls ih =>
    intro s s' t h ho e ht
    simp only [exec, Option.bind_eq_some_iff] at e
    obtain ⟨s1, e1, e2⟩ := e
    have hc1 := calm_step h (ho l (by simp)) e1
    have key : (mu s1 t < mu s t ∧ (s1.pc t).call = (s.pc t).call ∧
        cls (s1.pc t).stg ≠ .none) ∨ ((s.pc t).call, (s.pc t).r) ∈ s1.rets := by
      cases l with
      | win => exact Or.inl (mu_win h.inv h.win ht e1)
      | ret r => exact Or.inl (mu_ret h.inv ht e1)
      | caller u =>
        have hu : u = t := by
          apply h.alone u t
          · intro hi; simp [step, callerStep, hi] at e1
          · intro hi; rw [hi] at ht; exact ht rfl
        subst hu
        exact mu_caller h.inv h.inv2 h.alone ht e1
      | _ => have := ho _ List.mem_cons_self; simp [own] at this
    rcases key with ⟨k1, k2, k3⟩ | k
    · rcases ih hc1 (fun l hl => ho l (by simp [hl])) e2 k3 with ⟨r, hr⟩ | ⟨g1, g2, g3, g4⟩
      · exact Or.inl ⟨r, by rw [← k2]; exact hr⟩
      · exact Or.inr ⟨g1, g2, by rw [g3, k2], by simp only [List.length_cons]; omega⟩
    · exact Or.inl ⟨_, rets_mono_exec e2 k⟩

end Verif.WinCall
