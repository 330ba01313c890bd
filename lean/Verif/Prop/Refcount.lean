import Verif.Model.Refcount

/-! Property C16: reference counts under every interleaving. -/

namespace Verif.Refcount

/-- Number of decrements that returned 1, i.e. told their caller to free the object. -/
def frees (rs : List (Call × U32)) : Nat := rs.countP fun r => r.1 = .dec ∧ r.2 = 1

/-- What holds in every reachable state. -/
structure Good (s : St) : Prop where
  count : s.count.toNat = s.refs.length
  bound : s.refs.length < 2 ^ 32
  frees : frees s.results = if s.refs = [] then 1 else 0
  last : s.refs = [] → s.results.head? = some (.dec, 1)

theorem bump_spec {s : St} {t : Nat} {c : Call} (h : Good s) (ht : t ∈ s.refs)
    (hb : (owners s.refs t c).length < 2 ^ 32) :
    (bump s.count c).toNat = (owners s.refs t c).length ∧
    frees ((c, s.count) :: s.results) = (if owners s.refs t c = [] then 1 else 0) ∧
    (owners s.refs t c = [] → c = .dec ∧ s.count = 1) := by
  obtain ⟨h1, h2, h3, _⟩ := h
  have hne : s.refs ≠ [] := List.ne_nil_of_mem ht
  have hpos : 0 < s.refs.length := List.length_pos_iff.2 hne
  rw [if_neg hne] at h3
  have one : (1 : U32).toNat = 1 := rfl
  cases c with
  | inc =>
    have hb' : s.refs.length + 1 < 2 ^ 32 := hb
    refine ⟨?_, ?_, by simp [owners]⟩
    · show (s.count + 1).toNat = s.refs.length + 1
      rw [BitVec.toNat_add, h1, one]
      omega
    · rw [if_neg (by simp [owners])]
      simp only [frees] at *
      rw [List.countP_cons_of_neg (by simp), h3]
  | dec =>
    have hl : (owners s.refs t .dec).length = s.refs.length - 1 := List.length_erase_of_mem ht
    refine ⟨?_, ?_, ?_⟩
    · show (s.count - 1).toNat = _
      rw [BitVec.toNat_sub, h1, hl, one]
      omega
    · by_cases he : owners s.refs t .dec = []
      · have : s.count = 1 := by
          apply BitVec.eq_of_toNat_eq
          rw [h1, one]; rw [he] at hl; simp at hl
          omega
        rw [if_pos he]
        simp only [frees] at *
        rw [List.countP_cons_of_pos (by simp [this]), h3]
      · rw [if_neg he]
        have : s.count ≠ 1 := by
          intro hc
          rw [hc, one] at h1
          have : 0 < (owners s.refs t .dec).length := List.length_pos_iff.2 he
          omega
        simp only [frees] at *
        rw [List.countP_cons_of_neg (by simp; exact this), h3]
    · intro he
      refine ⟨rfl, ?_⟩
      apply BitVec.eq_of_toNat_eq
      rw [h1, one]; rw [he] at hl; simp at hl
      omega

theorem good_give {s : St} {t u : Nat} (h : Good s) (ht : t ∈ s.refs) :
    Good { s with refs := u :: s.refs.erase t } := by
  have hl : (s.refs.erase t).length = s.refs.length - 1 := List.length_erase_of_mem ht
  have hpos : 0 < s.refs.length := List.length_pos_iff.2 (List.ne_nil_of_mem ht)
  refine ⟨?_, ?_, ?_, by simp⟩
  · simp only [List.length_cons, hl, h.count]; omega
  · simp only [List.length_cons, hl]; have := h.bound; omega
  · rw [if_neg (by simp)]; have := h.frees; rwa [if_neg (List.ne_nil_of_mem ht)] at this

/-- A thread inside a call that has not yet updated the counter owns a reference. -/
def pending : PC → Bool
  | .lock _ | .load _ | .store _ _ => true
  | _ => false

theorem mem_owners_other {refs : List Nat} {t u : Nat} {c : Call} (h : u ∈ refs) (hne : u ≠ t) :
    u ∈ owners refs t c := by
  cases c with
  | inc => exact List.mem_cons_of_mem _ h
  | dec => exact (List.mem_erase_of_ne hne).2 h

theorem good_update {s : St} {t : Nat} {c : Call} {p m} (h : Good s) (ht : t ∈ s.refs)
    (hb : (owners s.refs t c).length < 2 ^ 32) :
    Good { s with count := bump s.count c, mutex := m, pc := p, refs := owners s.refs t c,
                  results := (c, s.count) :: s.results } := by
  obtain ⟨h1, h2, h3⟩ := bump_spec h ht hb
  refine ⟨h1, hb, h2, fun he => ?_⟩
  obtain ⟨rfl, h4⟩ := h3 he
  simp [h4]

/-! ### C11 atomics -/

structure InvA (s : St) : Prop where
  good : Good s
  pend : ∀ t, pending (s.pc t) = true → t ∈ s.refs

theorem initial_good (t0 : Nat) : Good (initial t0) := by
  refine ⟨rfl, by simp [initial], ?_, by simp [initial]⟩
  simp [initial, frees]

theorem inv_atomic {t0 : Nat} {s : St} (h : Reach StepA t0 s) : InvA s := by
  induction h with
  | init => exact ⟨initial_good t0, by simp [initial, pending]⟩
  | step s s' _ hst hb ih =>
    obtain ⟨hg, hp⟩ := ih
    cases hst with
    | call t c h1 h2 =>
      refine ⟨⟨hg.count, hg.bound, hg.frees, hg.last⟩, fun u hu => ?_⟩
      simp only [setPC] at hu
      split at hu
      · rename_i he; subst he; exact h2
      · exact hp u hu
    | rmw t c h1 =>
      have ht := hp t (by simp [h1, pending])
      refine ⟨good_update (m := s.mutex) hg ht hb, fun u hu => ?_⟩
      simp only [setPC] at hu
      split at hu
      · simp [pending] at hu
      · rename_i hne; exact mem_owners_other (hp u hu) hne
    | give t u h1 h2 =>
      refine ⟨good_give hg h2, fun v hv => ?_⟩
      have hvt : v ≠ t := by rintro rfl; simp [h1, pending] at hv
      exact List.mem_cons_of_mem _ ((List.mem_erase_of_ne hvt).2 (hp v hv))

/-! ### mutex -/

/-- Program points at which the thread holds the mutex. -/
def critical : PC → Bool
  | .load _ | .store _ _ | .unlock _ _ => true
  | _ => false

structure InvM (s : St) : Prop where
  good : Good s
  pend : ∀ t, pending (s.pc t) = true → t ∈ s.refs
  excl : ∀ t, critical (s.pc t) = true → s.mutex = some t
  held : ∀ t, s.mutex = some t → critical (s.pc t) = true
  val : ∀ t c old, s.pc t = .store c old → old = s.count

theorem inv_mutex {t0 : Nat} {s : St} (h : Reach StepM t0 s) : InvM s := by
  induction h with
  | init => exact ⟨initial_good t0, by simp [initial, pending], by simp [initial, critical], by simp [initial],
      by simp [initial]⟩
  | step s s' _ hst hb ih =>
    obtain ⟨hg, hp, hx, hh, hv⟩ := ih
    cases hst with
    | call t c h1 h2 =>
      refine ⟨⟨hg.count, hg.bound, hg.frees, hg.last⟩, fun u hu => ?_, fun u hu => ?_, fun u hu => ?_, fun u d old hu => ?_⟩ <;>
        simp only [setPC] at *
      · split at hu
        · rename_i he; subst he; exact h2
        · exact hp u hu
      · split at hu
        · simp [critical] at hu
        · exact hx u hu
      · have := hh u hu
        split
        · rename_i he; subst he; simp [h1, critical] at this
        · exact this
      · split at hu
        · simp at hu
        · exact hv u d old hu
    | lock t c h1 h2 =>
      refine ⟨⟨hg.count, hg.bound, hg.frees, hg.last⟩, fun u hu => ?_, fun u hu => ?_, fun u hu => ?_, fun u d old hu => ?_⟩ <;>
        simp only [setPC] at *
      · split at hu
        · rename_i he; subst he; exact hp u (by simp [h1, pending])
        · exact hp u hu
      · split at hu
        · rename_i he; rw [he]
        · have := hx u hu; rw [h2] at this; simp at this
      · simp only [Option.some.injEq] at hu; subst hu; simp [critical]
      · split at hu
        · simp at hu
        · exact hv u d old hu
    | load t c h1 =>
      refine ⟨⟨hg.count, hg.bound, hg.frees, hg.last⟩, fun u hu => ?_, fun u hu => ?_, fun u hu => ?_, fun u d old hu => ?_⟩ <;>
        simp only [setPC] at *
      · split at hu
        · rename_i he; subst he; exact hp u (by simp [h1, pending])
        · exact hp u hu
      · split at hu
        · rename_i he; subst he; exact hx u (by simp [h1, critical])
        · exact hx u hu
      · split
        · simp [critical]
        · exact hh u hu
      · split at hu
        · simp only [PC.store.injEq] at hu; exact hu.2.symm
        · exact hv u d old hu
    | store t c old h1 =>
      have ht := hp t (by simp [h1, pending])
      have hold := hv t c old h1
      subst hold
      have hm := hx t (by simp [h1, critical])
      refine ⟨good_update (m := s.mutex) hg ht hb, fun u hu => ?_, fun u hu => ?_, fun u hu => ?_, fun u d old hu => ?_⟩ <;>
        simp only [setPC] at *
      · split at hu
        · simp [pending] at hu
        · rename_i hne; exact mem_owners_other (hp u hu) hne
      · split at hu
        · rename_i he; subst he; exact hm
        · exact hx u hu
      · split
        · simp [critical]
        · exact hh u hu
      · split at hu
        · simp at hu
        · rename_i hne
          have := hx u (by simp [hu, critical])
          rw [hm] at this
          simp only [Option.some.injEq] at this
          exact absurd this.symm hne
    | unlock t c old h1 =>
      have hm := hx t (by simp [h1, critical])
      refine ⟨⟨hg.count, hg.bound, hg.frees, hg.last⟩, fun u hu => ?_, fun u hu => ?_, fun u hu => ?_, fun u d old hu => ?_⟩ <;>
        simp only [setPC] at *
      · split at hu
        · simp [pending] at hu
        · exact hp u hu
      · split at hu
        · simp [critical] at hu
        · rename_i hne
          have := hx u hu
          rw [hm] at this
          simp only [Option.some.injEq] at this
          exact absurd this.symm hne
      · simp at hu
      · split at hu
        · simp at hu
        · exact hv u d old hu
    | give t u h1 h2 =>
      refine ⟨good_give hg h2, fun v hv' => ?_, hx, hh, hv⟩
      have hvt : v ≠ t := by rintro rfl; simp [h1, pending] at hv'
      exact List.mem_cons_of_mem _ ((List.mem_erase_of_ne hvt).2 (hp v hv'))

/-- **C16**. Under every interleaving, of both implementations: while references
remain no decrement has returned 1; once none remains exactly one decrement has
returned 1, it is the last counter update, and no thread is about to update the
counter (so none ever will be). -/
theorem C16_refcount_frees_once_partial (t0 : Nat) (s : St) (h : Reach StepM t0 s ∨ Reach StepA t0 s) :
    (s.refs ≠ [] → frees s.results = 0) ∧
    (s.refs = [] → frees s.results = 1 ∧ s.results.head? = some (.dec, 1) ∧
      ∀ t, s.pc t = .idle ∨ ∃ c old, s.pc t = .unlock c old) := by
  have key : Good s ∧ ∀ t, pending (s.pc t) = true → t ∈ s.refs := by
    rcases h with h | h
    · exact ⟨(inv_mutex h).good, (inv_mutex h).pend⟩
    · exact ⟨(inv_atomic h).good, (inv_atomic h).pend⟩
  obtain ⟨hg, hp⟩ := key
  constructor
  · intro hne; have := hg.frees; rwa [if_neg hne] at this
  · intro he
    refine ⟨by have := hg.frees; rwa [if_pos he] at this, hg.last he, fun t => ?_⟩
    have := hp t
    rw [he] at this
    cases hpc : s.pc t with
    | idle => exact .inl rfl
    | unlock c old => exact .inr ⟨c, old, rfl⟩
    | lock c => simp [hpc, pending] at this
    | load c => simp [hpc, pending] at this
    | store c old => simp [hpc, pending] at this

/-- **C16**, the returned value: every call returns the number of references that
existed just before its update, and the count always equals the number of
references (in both versions). -/
theorem C16_count_exact_partial (t0 : Nat) (s : St) (h : Reach StepM t0 s ∨ Reach StepA t0 s) :
    s.count.toNat = s.refs.length ∧ ∀ t c old, s.pc t = .store c old → old.toNat = s.refs.length := by
  rcases h with h | h
  · have hI := inv_mutex h
    exact ⟨hI.good.count, fun t c old hs => by rw [hI.val t c old hs]; exact hI.good.count⟩
  · have hI := inv_atomic h
    refine ⟨hI.good.count, ?_⟩
    have : ∀ s, Reach StepA t0 s → ∀ t c old, s.pc t ≠ .store c old := by
      intro s h
      induction h with
      | init => simp [initial]
      | step s s' _ hst _ ih =>
        intro t c old
        cases hst with
        | call u d _ _ => simp only [setPC]; split; · simp
                          · exact ih t c old
        | rmw u d _ => simp only [setPC]; split; · simp
                       · exact ih t c old
        | give u v _ _ => exact ih t c old
    exact fun t c old hs => absurd hs (this s h t c old)

/-- **C16**, no deadlock in the mutex version: if any thread is inside a call, some
thread can take a step. -/
theorem C16_mutex_progress_partial (t0 : Nat) (s : St) (h : Reach StepM t0 s) (t : Nat) (ht : s.pc t ≠ .idle) :
    ∃ s', StepM s s' := by
  have hI := inv_mutex h
  have crit : ∀ u, critical (s.pc u) = true → ∃ s', StepM s s' := by
    intro u hu
    cases hpc : s.pc u with
    | idle => simp [hpc, critical] at hu
    | lock c => simp [hpc, critical] at hu
    | load c => exact ⟨_, .load s u c hpc⟩
    | store c old => exact ⟨_, .store s u c old hpc⟩
    | unlock c old => exact ⟨_, .unlock s u c old hpc⟩
  cases hm : s.mutex with
  | some u => exact crit u (hI.held u hm)
  | none =>
    cases hpc : s.pc t with
    | idle => exact absurd hpc ht
    | lock c => exact ⟨_, .lock s t c hpc hm⟩
    | load c => exact crit t (by simp [hpc, critical])
    | store c old => exact crit t (by simp [hpc, critical])
    | unlock c old => exact crit t (by simp [hpc, critical])

/-- A run in which thread 0 increments, hands a reference to thread 1, and both
drop: two threads inside the calls at once, and the second drop frees. -/
example : ∃ s, Reach StepA 0 s ∧ s.refs = [] ∧ s.results.length = 3 := by
  have r0 := Reach.init (step := StepA) (t0 := 0)
  have r1 := Reach.step _ _ r0 (.call _ 0 .inc rfl (by decide)) (by decide)
  have r2 := Reach.step _ _ r1 (.rmw _ 0 .inc rfl) (by decide)
  have r3 := Reach.step _ _ r2 (.give _ 0 1 rfl (by decide)) (by decide)
  have r4 := Reach.step _ _ r3 (.call _ 0 .dec rfl (by decide)) (by decide)
  have r5 := Reach.step _ _ r4 (.call _ 1 .dec rfl (by decide)) (by decide)
  have r6 := Reach.step _ _ r5 (.rmw _ 1 .dec rfl) (by decide)
  have r7 := Reach.step _ _ r6 (.rmw _ 0 .dec rfl) (by decide)
  exact ⟨_, r7, by decide, by decide⟩

end Verif.Refcount
