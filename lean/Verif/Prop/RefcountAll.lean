import Verif.Prop.Refcount

/-!
# C16 without a bound on the number of references
-/

namespace Verif.Refcount

/-- States reachable with any number of references. -/
inductive ReachAll (step : St → St → Prop) (t0 : Nat) : St → Prop where
  | init : ReachAll step t0 (initial t0)
  | step (s s') : ReachAll step t0 s → step s s' → ReachAll step t0 s'

theorem held_all {t0 : Nat} {s : St} (h : ReachAll StepM t0 s) :
    (∀ u, s.mutex = some u → critical (s.pc u) = true) ∧
    ∀ u, critical (s.pc u) = true → s.mutex = some u := by
  induction h with
  | init => exact ⟨by simp [initial], by simp [initial, critical]⟩
  | step s s' _ hst ih =>
    obtain ⟨i1, i2⟩ := ih
    cases hst with
    | call t c hpc _ =>
      constructor
      · intro u hu
        by_cases hut : u = t
        · subst hut; have := i1 u hu; rw [hpc] at this; simp [critical] at this
        · simpa [setPC, hut] using i1 u hu
      · intro u hu
        by_cases hut : u = t
        · subst hut; simp [setPC, critical] at hu
        · exact i2 u (by simpa [setPC, hut] using hu)
    | lock t c hpc hm =>
      constructor
      · intro u hu
        simp only [Option.some.injEq] at hu
        subst hu
        simp [setPC, critical]
      · intro u hu
        by_cases hut : u = t
        · subst hut; rfl
        · have := i2 u (by simpa [setPC, hut] using hu)
          rw [hm] at this; simp at this
    | load t c hpc =>
      constructor
      · intro u hu
        by_cases hut : u = t
        · subst hut; simp [setPC, critical]
        · simpa [setPC, hut] using i1 u hu
      · intro u hu
        by_cases hut : u = t
        · subst hut; exact i2 u (by simp [hpc, critical])
        · exact i2 u (by simpa [setPC, hut] using hu)
    | store t c old hpc =>
      constructor
      · intro u hu
        by_cases hut : u = t
        · subst hut; simp [setPC, critical]
        · simpa [setPC, hut] using i1 u hu
      · intro u hu
        by_cases hut : u = t
        · subst hut; exact i2 u (by simp [hpc, critical])
        · exact i2 u (by simpa [setPC, hut] using hu)
    | unlock t c old hpc =>
      constructor
      · intro u hu; simp at hu
      · intro u hu
        by_cases hut : u = t
        · subst hut; simp [setPC, critical] at hu
        · have h1 := i2 u (by simpa [setPC, hut] using hu)
          have h2 := i2 t (by simp [hpc, critical])
          rw [h1] at h2
          exact absurd (Option.some.inj h2) hut
    | give t u hpc hr => exact ⟨i1, i2⟩

/-- **C16**, no deadlock in the mutex version, whatever the number of references: if any thread is
inside a call, some thread that is inside a call can advance. -/
theorem C16_mutex_progress (t0 : Nat) (s : St) (h : ReachAll StepM t0 s) (t : Nat)
    (ht : s.pc t ≠ .idle) : ∃ u s', s.pc u ≠ .idle ∧ StepM s s' ∧ s'.pc u ≠ s.pc u := by
  obtain ⟨i1, -⟩ := held_all h
  have crit : ∀ u, critical (s.pc u) = true →
      ∃ u s', s.pc u ≠ .idle ∧ StepM s s' ∧ s'.pc u ≠ s.pc u := by
    intro u hu
    cases hpc : s.pc u with
    | idle => simp [hpc, critical] at hu
    | lock c => simp [hpc, critical] at hu
    | load c => exact ⟨u, _, by simp [hpc], .load s u c hpc, by simp [setPC, hpc]⟩
    | store c old => exact ⟨u, _, by simp [hpc], .store s u c old hpc, by simp [setPC, hpc]⟩
    | unlock c old => exact ⟨u, _, by simp [hpc], .unlock s u c old hpc, by simp [setPC, hpc]⟩
  cases hm : s.mutex with
  | some u => exact crit u (i1 u hm)
  | none =>
    cases hpc : s.pc t with
    | idle => exact absurd hpc ht
    | lock c => exact ⟨t, _, by simp [hpc], .lock s t c hpc hm, by simp [setPC, hpc]⟩
    | load c => exact crit t (by simp [hpc, critical])
    | store c old => exact crit t (by simp [hpc, critical])
    | unlock c old => exact crit t (by simp [hpc, critical])

/-- **C16**, mutual exclusion, whatever the number of references. -/
theorem C16_mutex_exclusion (t0 : Nat) (s : St) (h : ReachAll StepM t0 s) (t u : Nat)
    (ht : critical (s.pc t) = true) (hu : critical (s.pc u) = true) : t = u := by
  obtain ⟨-, i2⟩ := held_all h
  have h1 := i2 t ht
  rw [i2 u hu] at h1
  exact (Option.some.inj h1).symm

theorem setPC_idle (f : Nat → PC) (t : Nat) (p : PC) (h : f t = .idle) :
    setPC (setPC f t p) t .idle = f := by
  funext u
  by_cases hu : u = t
  · subst hu; simp [setPC, h]
  · simp [setPC, hu]

/-- After `k` increments by one thread. -/
theorem many_incs (k : Nat) : ∃ s, ReachAll StepA 0 s ∧ s.count = BitVec.ofNat 32 (k + 1) ∧
    s.refs = List.replicate (k + 1) 0 ∧ (∀ t, s.pc t = .idle) ∧ frees s.results = 0 := by
  induction k with
  | zero => exact ⟨_, .init, rfl, rfl, fun _ => rfl, rfl⟩
  | succ k ih =>
    obtain ⟨s, h1, h2, h3, h4, h5⟩ := ih
    have r1 := ReachAll.step _ _ h1 (.call s 0 .inc (h4 0) (by rw [h3]; simp))
    have r2 := ReachAll.step _ _ r1 (.rmw _ 0 .inc (by simp [setPC]))
    refine ⟨_, r2, ?_, ?_, ?_, ?_⟩
    · simp only [bump, h2]
      apply BitVec.eq_of_toNat_eq
      simp [BitVec.toNat_add, BitVec.toNat_ofNat]
    · simp only [owners, h3]
      rfl
    · intro t
      simp only [setPC_idle _ _ _ (h4 0), h4]
    · simp only [frees] at *
      rw [List.countP_cons_of_neg (by simp), h5]

theorem wrap_at (k : Nat) (hk : BitVec.ofNat 32 (k + 1) = 1) :
    ∃ s, ReachAll StepA 0 s ∧ s.refs.length = k ∧ frees s.results = 1 := by
  obtain ⟨s, h1, h2, h3, h4, h5⟩ := many_incs k
  have r1 := ReachAll.step _ _ h1 (.call s 0 .dec (h4 0) (by rw [h3]; simp))
  have r2 := ReachAll.step _ _ r1 (.rmw _ 0 .dec (by simp [setPC]))
  have hc : s.count = 1 := h2.trans hk
  refine ⟨_, r2, ?_, ?_⟩
  · simp only [owners, h3]
    rw [List.length_erase_of_mem (by simp), List.length_replicate]
    omega
  · simp only [frees] at *
    rw [List.countP_cons_of_pos (by simp [hc]), h5]

/-- **C16 fails** once 2^32 references more than one exist: the counter is a 32-bit `unsigned` and
wraps around, and a decrement returns 1 although 2^32 references remain. -/
theorem C16_violates_wrap : ∃ s, ReachAll StepA 0 s ∧ s.refs.length = 2 ^ 32 ∧
    frees s.results = 1 :=
  wrap_at (2 ^ 32) (BitVec.eq_of_toNat_eq (by rw [BitVec.toNat_ofNat]; rfl))

/-- Threads inside the calls. -/
example : ∃ s, ReachAll StepM 0 s ∧ s.pc 0 ≠ .idle := by
  have r0 := ReachAll.init (step := StepM) (t0 := 0)
  exact ⟨_, ReachAll.step _ _ r0 (.call _ 0 .inc rfl (by decide)), by simp [setPC]⟩

end Verif.Refcount
