/-
C165: rendering frames on several hosts.
-/
import Verif.Model.NetRender
import Mathlib.Data.List.Perm.Basic
import Mathlib.Data.List.Nodup

set_option linter.unusedSectionVars false

namespace Verif.NetRender

variable {H I : Type} [DecidableEq H] [DecidableEq I]

/-- The number of processes on a host. -/
def load (r : List (H × I)) (h : H) : Nat := r.countP fun e => e.1 = h

/-- The frame the thread holds. -/
def cur : Pc I → List I
  | .scan i => [i]
  | .wait i => [i]
  | _ => []

def Pc.late : Pc I → Prop
  | .drain => True
  | .drainWait => True
  | .done => True
  | _ => False

/-- What holds whatever the hosts. -/
structure Inv0 (work : List I) (s : St H I) : Prop where
  active : s.active = s.running.length
  items : (cur s.pc ++ s.queue ++ s.running.map Prod.snd ++ s.finished).Perm work
  late : s.pc.late → s.queue = []
  drainWaiting : s.pc = .drainWait → s.sem = 0 → s.active ≠ 0
  done : s.pc = .done → s.active = 0

structure Inv (jobs : H → Nat) (hosts : List H) (s : St H I) : Prop where
  syncNodup : s.sync.Nodup
  syncHosts : ∀ h ∈ s.sync, h ∈ hosts
  syncing : ∀ h ∈ s.sync, s.avail h = none ∧ load s.running h = 0
  synced : ∀ h ∈ hosts, h ∉ s.sync → (s.avail h).getD 0 + load s.running h = jobs h
  others : ∀ h, h ∉ hosts → s.avail h = none ∧ load s.running h = 0
  waiting : ∀ i, s.pc = .wait i → s.sem = 0 → ∀ h, (s.avail h).getD 0 = 0

theorem init_avail (jobs : H → Nat) (l : List H) (a : H → Option Nat) (h : H) :
    l.foldl (fun a h => set a h (some (jobs h))) a h = if h ∈ l then some (jobs h) else a h := by
  induction l generalizing a with
  | nil => simp
  | cons x l ih =>
    rw [List.foldl_cons, ih]
    by_cases h1 : h ∈ l
    · simp [h1]
    · by_cases h2 : h = x
      · subst h2; simp [h1, set]
      · simp [h1, h2, set]

theorem inv_init (jobs : H → Nat) (isLocal : H → Bool) (hosts : List H) (hd : hosts.Nodup) (work : List I) :
    Inv jobs hosts (init jobs isLocal hosts work) where
  syncNodup := hd.filter _
  syncHosts h hh := (List.mem_filter.1 hh).1
  syncing h hh := by
    have := List.mem_filter.1 hh
    refine ⟨?_, rfl⟩
    simp only [init, init_avail]
    simp at this
    simp [this]
  synced h hh hs := by
    simp only [init, List.mem_filter, not_and] at hs
    have hs := hs hh
    simp only [init, init_avail]
    simp at hs
    simp [hh, hs, load]
  others h hh := by
    refine ⟨?_, rfl⟩
    simp only [init, init_avail]
    simp [hh]
  waiting := by simp [init]

theorem inv0_init (jobs : H → Nat) (isLocal : H → Bool) (hosts : List H) (work : List I) :
    Inv0 work (init jobs isLocal hosts work) where
  active := rfl
  items := by simp [init, cur]
  late := by simp [init, Pc.late]
  drainWaiting := by simp [init]
  done := by simp [init]

theorem load_cons (r : List (H × I)) (k : H) (i : I) (h : H) :
    load ((k, i) :: r) h = load r h + if h = k then 1 else 0 := by
  unfold load
  by_cases hk : h = k
  · subst hk; simp
  · simp [hk, Ne.symm hk]

theorem load_erase {r : List (H × I)} {k : H} {i : I} (hm : (k, i) ∈ r) (h : H) :
    load r h = load (r.erase (k, i)) h + if h = k then 1 else 0 := by
  have := (List.perm_cons_erase hm).countP_eq fun e => decide (e.1 = h)
  rw [load, this]
  exact load_cons _ _ _ _

theorem inv0_step {jobs : H → Nat} {work : List I} {s s' : St H I} (hi : Inv0 work s) (h : Step jobs s s') :
    Inv0 work s' := by
  have hitems := hi.items
  cases h with
  | pop i q h1 h2 =>
    rw [h1, h2] at hitems
    exact { hi with items := by simpa [cur] using hitems, late := by simp [Pc.late], drainWaiting := by simp,
                    done := by simp }
  | empty h1 h2 =>
    rw [h1] at hitems
    exact { hi with items := by simpa [cur] using hitems, late := by simp [h2], drainWaiting := by simp,
                    done := by simp }
  | take i k n h1 h2 h3 =>
    rw [h1] at hitems
    refine { active := by simp [hi.active], items := ?_, late := by simp [Pc.late], drainWaiting := by simp,
             done := by simp }
    simp only [cur, List.map_cons, List.nil_append, List.cons_append, List.append_assoc] at hitems ⊢
    exact (List.perm_middle).trans hitems
  | noHost i h1 h2 =>
    rw [h1] at hitems
    exact { hi with items := by simpa [cur] using hitems, late := by simp [Pc.late], drainWaiting := by simp,
                    done := by simp }
  | wake i n h1 h2 =>
    rw [h1] at hitems
    exact { hi with items := by simpa [cur] using hitems, late := by simp [Pc.late], drainWaiting := by simp,
                    done := by simp }
  | drained h1 h2 =>
    have hq := hi.late (by rw [h1]; trivial)
    rw [h1] at hitems
    exact { hi with items := by simpa [cur] using hitems, late := by simp [hq], drainWaiting := by simp,
                    done := by simp [h2] }
  | drain h1 h2 =>
    have hq := hi.late (by rw [h1]; trivial)
    rw [h1] at hitems
    exact { hi with items := by simpa [cur] using hitems, late := by simp [hq], drainWaiting := by simp [h2],
                    done := by simp }
  | drainWake n h1 h2 =>
    have hq := hi.late (by rw [h1]; trivial)
    rw [h1] at hitems
    exact { hi with items := by simpa [cur] using hitems, late := by simp [hq], drainWaiting := by simp,
                    done := by simp }
  | finish k i hm =>
    have hlen := List.length_erase_of_mem hm
    refine { active := by simp [hi.active, hlen], items := ?_, late := hi.late, drainWaiting := by simp, done := ?_ }
    · refine List.Perm.trans ?_ hitems
      have h1 : (s.running.map Prod.snd).Perm (i :: (s.running.erase (k, i)).map Prod.snd) :=
        (List.perm_cons_erase hm).map Prod.snd
      have h2 : (((s.running.erase (k, i)).map Prod.snd) ++ i :: s.finished).Perm (s.running.map Prod.snd ++ s.finished) :=
        List.perm_middle.trans (h1.symm.append_right s.finished)
      simpa only [List.append_assoc] using (h2.append_left s.queue).append_left (cur s.pc)
    · intro hd
      have := hi.done hd
      simp [this]
  | synced k hm =>
    exact { active := hi.active, items := hitems, late := hi.late, drainWaiting := by simp, done := hi.done }

theorem inv_step {jobs : H → Nat} {hosts : List H} {s s' : St H I} (hi : Inv jobs hosts s) (h : Step jobs s s') :
    Inv jobs hosts s' := by
  cases h with
  | pop i q h1 h2 => exact { hi with waiting := by simp }
  | empty h1 h2 => exact { hi with waiting := by simp }
  | take i k n h1 h2 h3 =>
    have hk : k ∈ hosts := by
      by_contra hc
      have := (hi.others k hc).1
      simp [h2] at this
    have hks : k ∉ s.sync := by
      intro hc
      have := (hi.syncing k hc).1
      simp [h2] at this
    have hn : (takeJob n).getD 0 + 1 = n := by
      unfold takeJob
      split_ifs with h4
      · simp [h4]
      · simp; omega
    refine { syncNodup := hi.syncNodup, syncHosts := hi.syncHosts, syncing := ?_, synced := ?_, others := ?_,
             waiting := by simp }
    · intro h hh
      have hne : h ≠ k := fun e => hks (e ▸ hh)
      simpa [set, hne, load_cons] using hi.syncing h hh
    · intro h hh hs
      have := hi.synced h hh hs
      by_cases hne : h = k
      · subst hne
        simp only [set, load_cons, if_true]
        simp only [h2, Option.getD_some] at this
        omega
      · simpa [set, hne, load_cons] using this
    · intro h hh
      have hne : h ≠ k := fun e => hh (e ▸ hk)
      simpa [set, hne, load_cons] using hi.others h hh
  | noHost i h1 h2 =>
    refine { hi with waiting := ?_ }
    intro _ _ _ h
    show (s.avail h).getD 0 = 0
    cases ha : s.avail h with
    | none => rfl
    | some n => simpa using h2 h n ha
  | wake i n h1 h2 => exact { hi with waiting := by simp }
  | drained h1 h2 => exact { hi with waiting := by simp }
  | drain h1 h2 => exact { hi with waiting := by simp }
  | drainWake n h1 h2 => exact { hi with waiting := by simp }
  | finish k i hm =>
    have hload := load_erase hm
    have hpos : 0 < load s.running k := by rw [hload k]; simp
    have hk : k ∈ hosts := by
      by_contra hc
      have := (hi.others k hc).2
      omega
    have hks : k ∉ s.sync := by
      intro hc
      have := (hi.syncing k hc).2
      omega
    refine { syncNodup := hi.syncNodup, syncHosts := hi.syncHosts, syncing := ?_, synced := ?_, others := ?_,
             waiting := by simp }
    · intro h hh
      have hne : h ≠ k := fun e => hks (e ▸ hh)
      have := hi.syncing h hh
      rw [hload h] at this
      simpa [set, hne] using this
    · intro h hh hs
      have := hi.synced h hh hs
      rw [hload h] at this
      by_cases hne : h = k
      · subst hne
        simp only [set, if_true, Option.getD_some] at this ⊢
        omega
      · simpa [set, hne] using this
    · intro h hh
      have hne : h ≠ k := fun e => hh (e ▸ hk)
      have := hi.others h hh
      rw [hload h] at this
      simpa [set, hne] using this
  | synced k hm =>
    refine { syncNodup := hi.syncNodup.erase k,
             syncHosts := fun h hh => hi.syncHosts h (List.mem_of_mem_erase hh), syncing := ?_,
             synced := ?_, others := ?_, waiting := by simp }
    · intro h hh
      have := (List.Nodup.mem_erase_iff hi.syncNodup).1 hh
      simpa [set, this.1] using hi.syncing h this.2
    · intro h hh hs
      by_cases hne : h = k
      · subst hne
        have := (hi.syncing h hm).2
        simp [set, this]
      · have : h ∉ s.sync := fun hc => hs ((List.Nodup.mem_erase_iff hi.syncNodup).2 ⟨hne, hc⟩)
        simpa [set, hne] using hi.synced h hh this
    · intro h hh
      have hne : h ≠ k := fun e => hh (e ▸ hi.syncHosts k hm)
      simpa [set, hne] using hi.others h hh

theorem inv_reach {jobs : H → Nat} {isLocal : H → Bool} {hosts : List H} (hd : hosts.Nodup) {work : List I} {s : St H I}
    (h : Reach jobs (init jobs isLocal hosts work) s) : Inv jobs hosts s := by
  induction h with
  | start => exact inv_init jobs isLocal hosts hd work
  | step _ hs ih => exact inv_step ih hs

theorem inv0_reach {jobs : H → Nat} {isLocal : H → Bool} {hosts : List H} {work : List I} {s : St H I}
    (h : Reach jobs (init jobs isLocal hosts work) s) : Inv0 work s := by
  induction h with
  | start => exact inv0_init jobs isLocal hosts work
  | step _ hs ih => exact inv0_step ih hs

/-- However the ends of processes interleave with the thread, no host runs more processes than it was given jobs, hosts
that are not listed run none, and none runs before its files are copied. -/
theorem C165_load_partial (jobs : H → Nat) (isLocal : H → Bool) (hosts : List H) (hd : hosts.Nodup) (work : List I)
    (s : St H I) (h : Reach jobs (init jobs isLocal hosts work) s) :
    (∀ k ∈ hosts, (s.running.map Prod.fst).count k ≤ jobs k) ∧ (∀ k, k ∉ hosts → (s.running.map Prod.fst).count k = 0) ∧
      ∀ k ∈ s.sync, (s.running.map Prod.fst).count k = 0 := by
  have hi := inv_reach hd h
  have hl : ∀ k, (s.running.map Prod.fst).count k = load s.running k := by
    intro k
    rw [load, List.count, List.countP_map]
    congr 1
  refine ⟨fun k hk => ?_, fun k hk => ?_, fun k hk => ?_⟩
  · rw [hl]
    by_cases hs : k ∈ s.sync
    · rw [(hi.syncing k hs).2]; exact Nat.zero_le _
    · have := hi.synced k hk hs
      omega
  · rw [hl]; exact (hi.others k hk).2
  · rw [hl]; exact (hi.syncing k hk).2

/-- At any time each frame is in one place: left, with the thread, with a process or finished.  So no frame is rendered
twice. -/
theorem C165_once (jobs : H → Nat) (isLocal : H → Bool) (hosts : List H) (work : List I)
    (s : St H I) (h : Reach jobs (init jobs isLocal hosts work) s) (i : I) :
    (cur s.pc).count i + s.queue.count i + (s.running.map Prod.snd).count i + s.finished.count i = work.count i := by
  have := (inv0_reach h).items.count_eq i
  simp only [List.count_append] at this
  exact this

/-- When `net-process` returns, each frame has been rendered, once, and no process is left. -/
theorem C165_done (jobs : H → Nat) (isLocal : H → Bool) (hosts : List H) (work : List I)
    (s : St H I) (h : Reach jobs (init jobs isLocal hosts work) s) (hp : s.pc = .done) :
    s.finished.Perm work ∧ s.running = [] := by
  have hi := inv0_reach h
  have h1 := hi.done hp
  have h2 : s.running = [] := List.eq_nil_of_length_eq_zero (hi.active ▸ h1)
  have h3 := hi.late (by rw [hp]; trivial)
  have := hi.items
  rw [hp, h2, h3] at this
  exact ⟨by simpa [cur] using this, h2⟩

/-- As long as a host has a job, the thread is never stuck: until it is done it can go on, or a process is running
whose end lets it go on. -/
theorem C165_live_partial (jobs : H → Nat) (isLocal : H → Bool) (hosts : List H) (hd : hosts.Nodup) (work : List I)
    (k : H) (hk : k ∈ hosts) (hj : jobs k ≠ 0) (s : St H I) (h : Reach jobs (init jobs isLocal hosts work) s)
    (hp : s.pc ≠ .done) : ∃ s', Step jobs s s' := by
  have hi := inv_reach hd h
  have hi0 := inv0_reach h
  cases hpc : s.pc with
  | next =>
    cases hq : s.queue with
    | nil => exact ⟨_, .empty s hpc hq⟩
    | cons i q => exact ⟨_, .pop s i q hpc hq⟩
  | scan i =>
    by_cases hh : ∀ h n, s.avail h = some n → n = 0
    · exact ⟨_, .noHost s i hpc hh⟩
    · push Not at hh
      obtain ⟨h, n, h1, h2⟩ := hh
      exact ⟨_, .take s i h n hpc h1 h2⟩
  | wait i =>
    cases hs : s.sem with
    | zero =>
      by_cases hks : k ∈ s.sync
      · exact ⟨_, .synced s k hks⟩
      · have h1 := hi.synced k hk hks
        rw [hi.waiting i hpc hs k, Nat.zero_add] at h1
        have : 0 < load s.running k := by omega
        obtain ⟨⟨a, b⟩, he, -⟩ := List.countP_pos_iff.1 this
        exact ⟨_, .finish s a b he⟩
    | succ n => exact ⟨_, .wake s i n hpc hs⟩
  | drain =>
    by_cases ha : s.active = 0
    · exact ⟨_, .drained s hpc ha⟩
    · exact ⟨_, .drain s hpc ha⟩
  | drainWait =>
    cases hs : s.sem with
    | zero =>
      have h1 := hi0.drainWaiting hpc hs
      rw [hi0.active] at h1
      obtain ⟨⟨a, b⟩, he⟩ := List.exists_mem_of_length_pos (Nat.pos_of_ne_zero h1)
      exact ⟨_, .finish s a b he⟩
    | succ n => exact ⟨_, .drainWake s n hpc hs⟩
  | done => exact absurd hpc hp

def pcWeight : Pc I → Nat
  | .next => 2
  | .scan _ => 6
  | .wait _ => 5
  | .drain => 1
  | .drainWait => 0
  | .done => 0

def weight (s : St H I) : Nat :=
  6 * s.queue.length + 3 * s.running.length + 3 * s.sync.length + 2 * s.sem + pcWeight s.pc

theorem weight_step {jobs : H → Nat} {s s' : St H I} (h : Step jobs s s') : weight s' < weight s := by
  cases h with
  | pop i q h1 h2 => simp [weight, pcWeight, h1, h2]; omega
  | empty h1 h2 => simp [weight, pcWeight, h1]
  | take i k n h1 h2 h3 => simp [weight, pcWeight, h1]; omega
  | noHost i h1 h2 => simp [weight, pcWeight, h1]
  | wake i n h1 h2 => simp [weight, pcWeight, h1, h2]; omega
  | drained h1 h2 => simp [weight, pcWeight, h1]
  | drain h1 h2 => simp [weight, pcWeight, h1]
  | drainWake n h1 h2 => simp [weight, pcWeight, h1, h2]; omega
  | finish k i hm =>
    have h1 := List.length_erase_of_mem hm
    have h2 := List.length_pos_of_mem hm
    simp only [weight, h1]; omega
  | synced k hm =>
    have h1 := List.length_erase_of_mem hm
    have h2 := List.length_pos_of_mem hm
    simp only [weight, h1]; omega

/-- Every way the thread and the processes can take turns comes to an end: from the start at most six steps for each
frame, three for each host and two more. -/
theorem C165_ends (jobs : H → Nat) (isLocal : H → Bool) (hosts : List H) (work : List I) (f : Nat → St H I) (n : Nat)
    (h0 : f 0 = init jobs isLocal hosts work) (h : ∀ m < n, Step jobs (f m) (f (m + 1))) :
    n ≤ 6 * work.length + 3 * hosts.length + 2 := by
  have key : ∀ m ≤ n, weight (f m) + m ≤ weight (f 0) := by
    intro m
    induction m with
    | zero => intro _; simp
    | succ m ih =>
      intro hm
      have h1 := ih (by omega)
      have h2 := weight_step (h m (by omega))
      omega
  have h1 := key n (Nat.le_refl n)
  have h2 : weight (f 0) ≤ 6 * work.length + 3 * hosts.length + 2 := by
    rw [h0]
    have := List.length_filter_le (fun h => !isLocal h) hosts
    simp [weight, init, pcWeight]
    omega
  omega

/-- So rendering always ends, with all frames rendered, if a host has a job. -/
theorem C165_all_partial (jobs : H → Nat) (isLocal : H → Bool) (hosts : List H) (hd : hosts.Nodup) (work : List I)
    (k : H) (hk : k ∈ hosts) (hj : jobs k ≠ 0) (s : St H I) (h : Reach jobs (init jobs isLocal hosts work) s)
    (hstop : ∀ s', ¬ Step jobs s s') : s.pc = .done ∧ s.finished.Perm work := by
  have hp : s.pc = .done := by
    by_contra hp
    obtain ⟨s', hs⟩ := C165_live_partial jobs isLocal hosts hd work k hk hj s h hp
    exact hstop s' hs
  exact ⟨hp, (C165_done jobs isLocal hosts work s h hp).1⟩

/-- Rendering an animation without frames is an error. -/
theorem C165_empty_violates (jobs : H → Nat) (isLocal : H → Bool) (hosts : List H) (h : hosts ≠ []) :
    start jobs isLocal hosts ([] : List I) = none := by simp [start, h]

/-- Where no host has a job, a frame is waited for for ever. -/
theorem C165_jobs_violates (isLocal : H → Bool) (i : I) (q : List I) :
    ∃ s, Reach (fun _ => 0) (init (fun _ : H => 0) isLocal [] (i :: q)) s ∧ s.pc ≠ .done ∧
      ∀ s', ¬ Step (fun _ => 0) s s' := by
  refine ⟨⟨fun _ => none, q, [], [], 0, 0, [], .wait i⟩, ?_, by simp, ?_⟩
  · refine .step (.step .start (.pop _ i q rfl rfl)) (.noHost _ i rfl ?_)
    intro h n hn
    simp [init] at hn
  · intro s' hs
    cases hs <;> simp_all

/-- A host that is listed twice runs more processes than either entry allows. -/
theorem C165_twice_violates :
    ∃ s, Reach (fun _ => 1) (init (fun _ : Bool => 1) (fun _ => false) [true, true] [1, 2, 3]) s ∧
      (s.running.map Prod.fst).count true = 2 := by
  refine ⟨_, .step (.step (.step (.step (.step (.step .start (.synced _ true ?_)) (.pop _ 1 [2, 3] rfl rfl))
    (.take _ 1 true 1 rfl rfl (by decide))) (.synced _ true ?_)) (.pop _ 2 [3] rfl rfl))
    (.take _ 2 true 1 rfl rfl (by decide)), ?_⟩
  · decide
  · decide
  · decide

/-- Two frames on one host with one job, step by step. -/
example : ∃ s, Reach (fun _ => 1) (init (fun _ : Bool => 1) (fun h => h) [true] [1, 2]) s ∧ s.pc = .done ∧
    s.finished = [2, 1] := by
  refine ⟨_, .step (.step (.step (.step (.step (.step (.step (.step (.step (.step (.step (.step .start
    (.pop _ 1 [2] rfl rfl)) (.take _ 1 true 1 rfl rfl (by decide))) (.pop _ 2 [] rfl rfl)) (.noHost _ 2 rfl ?_))
    (.finish _ true 1 ?_)) (.wake _ 2 0 rfl rfl)) (.take _ 2 true 1 rfl rfl (by decide))) (.empty _ rfl rfl))
    (.drain _ rfl ?_)) (.finish _ true 2 ?_)) (.drainWake _ 0 rfl rfl)) (.drained _ rfl rfl), rfl, rfl⟩
  · intro h n hn
    cases h
    · have : (none : Option Nat) = some n := hn
      simp at this
    · have : (none : Option Nat) = some n := hn
      simp at this
  · decide
  · decide
  · decide

end Verif.NetRender
