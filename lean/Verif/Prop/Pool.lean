import Verif.Proof.Pool

/-! Property C08: memory pools. -/

namespace Verif.Pool
open Verif.Region (Out)

/-- Platform assumption as for regions: `malloc` is 16-aligned, or the pool is
never released. -/
def Platform (a : Nat) (ops : List Op) : Prop :=
  (16 ∣ a ∧ ∀ op ∈ ops, 16 ∣ op.addr) ∨ (∀ op ∈ ops, op.isRelease = false)

theorem platform_start {a : Nat} {ops : List Op} (hp : Platform a ops) (size count : Nat) (mem : Nat → Nat) :
    ∃ al : Prop, start size count mem a ops = .oracle ∨
      ∃ s fl, start size count mem a ops = .ok s ∧ PInv al s fl := by
  rcases hp with ⟨h1, h2⟩ | h
  · exact ⟨True, start_spec size count mem a (fun _ => h1) ops (fun o ho _ => h2 o ho) (fun _ _ _ => trivial)⟩
  · exact ⟨False, start_spec size count mem a (fun h => h.elim) ops (fun _ _ h => h.elim)
      (fun o ho hr => by simp [h o ho] at hr)⟩

/-- **C08**. For every history of allocations, frees of outstanding blocks, client
writes inside outstanding blocks and releases, all outstanding blocks are pairwise
disjoint ranges of `size` bytes owned by the pool: no block is handed out twice. -/
theorem C08_pool_blocks_disjoint_partial (size count : Nat) (mem : Nat → Nat) (a : Nat) (ops : List Op)
    (hp : Platform a ops) :
    start size count mem a ops = .oracle ∨ ∃ s, start size count mem a ops = .ok s ∧
      s.out.Pairwise (fun p q => p + size ≤ q ∨ q + size ≤ p) ∧ s.out.Nodup ∧
      ∀ p ∈ s.out, Region.Owned s.pool.reg p size := by
  obtain ⟨al, h | ⟨s, fl, h, hI⟩⟩ := platform_start hp size count mem
  · exact .inl h
  · right
    have hs := hI.sep
    have hle : size ≤ s.pool.size := by
      have key : ∀ (ops : List Op) (s s' : St), run s ops = .ok s' → s'.pool.size = s.pool.size := by
        intro ops
        induction ops with
        | nil => intro s s' h; simp only [run, Out.ok.injEq] at h; rw [h]
        | cons op ops ih =>
          intro s s' h
          cases hst : step s op with
          | ub => simp [run, hst] at h
          | oracle => simp [run, hst] at h
          | ok s1 =>
            simp only [run, hst, Region.Out.bind_ok] at h
            rw [ih s1 s' h]
            cases op with
            | alloc a =>
              simp only [step, alloc] at hst
              split at hst
              · simp at hst; rw [← hst]
              · cases hr : Region.alloc s.pool.reg s.pool.size a with
                | ub => simp [hr] at hst
                | oracle => simp [hr] at hst
                | ok x => simp [hr] at hst; rw [← hst]
            | free k =>
              simp only [step] at hst
              split at hst <;> simp at hst <;> rw [← hst] <;> rfl
            | write k off v =>
              simp only [step] at hst
              split at hst
              · simp at hst; rw [← hst]
              · split at hst <;> simp at hst <;> rw [← hst]
            | release a =>
              simp only [step, release] at hst
              cases hr : Region.release s.pool.reg a with
              | ub => simp [hr] at hst
              | oracle => simp [hr] at hst
              | ok x => simp [hr] at hst; rw [← hst]
      unfold start at h
      cases hi : init size count mem a with
      | ub => simp [hi] at h
      | oracle => simp [hi] at h
      | ok P =>
        simp only [hi, Region.Out.bind_ok] at h
        rw [key _ _ _ h]
        simp only [init] at hi
        cases hr : Region.init (max size 16 * count) a with
        | ub => simp [hr] at hi
        | oracle => simp [hr] at hi
        | ok r => simp [hr] at hi; rw [← hi]; exact Nat.le_max_left _ _
    have h1 := (List.pairwise_append.1 hs.1).1
    refine ⟨s, h, ?_, ?_, ?_⟩
    · exact h1.imp (by intro p q hpq; omega)
    · have := hI.size; exact h1.imp (by intro p q hpq; omega)
    · intro p hp
      obtain ⟨_, c, hc, h1, h2⟩ := hs.2 p (List.mem_append_left _ hp)
      exact ⟨c, hc, h1, by omega⟩

/-- Specification of last-freed-first: the ghost free stack after a history
(frees push, allocations take the newest if there is one, release clears). -/
def freed (s : St) (fl : List Nat) : List Op → List Nat
  | [] => fl
  | op :: ops => match step s op with
    | .ok s' => freed s' (freeStk s fl op) ops
    | _ => fl

theorem run_freed {al s fl} (h : PInv al s fl) (ops : List Op) (ha : ∀ op ∈ ops, al → 16 ∣ op.addr)
    (hr : ∀ op ∈ ops, op.isRelease = true → al) (s' : St) (hs : run s ops = .ok s') :
    PInv al s' (freed s fl ops) := by
  induction ops generalizing s fl with
  | nil => simp only [run, Out.ok.injEq] at hs; subst hs; exact h
  | cons op ops ih =>
    rcases step_spec h op (ha op (by simp)) (hr op (by simp)) with h1 | ⟨s1, h1, hI⟩
    · simp [run, h1] at hs
    · simp only [run, h1, Region.Out.bind_ok] at hs
      simp only [freed, h1]
      exact ih hI (fun o ho => ha o (List.mem_cons_of_mem _ ho))
        (fun o ho => hr o (List.mem_cons_of_mem _ ho)) hs

/-- **C08**, order of reuse: after any history, an allocation returns the most
recently freed block that has not been reused, without touching the region; it
takes fresh memory only if no freed block is left. -/
theorem C08_pool_lifo_partial (size count : Nat) (mem : Nat → Nat) (a : Nat) (ops : List Op) (hp : Platform a ops)
    (P0 : Pool) (h0 : init size count mem a = .ok P0) (s : St) (hs : run ⟨P0, []⟩ ops = .ok s) (a' : Nat) :
    match freed ⟨P0, []⟩ [] ops with
    | p :: _ => ∃ P, alloc s.pool a' = .ok (P, p) ∧ P.reg = s.pool.reg
    | [] => alloc s.pool a' = (do
        let (r, p) ← Region.alloc s.pool.reg s.pool.size a'
        pure ({ s.pool with reg := r }, p)) := by
  have hI : ∃ al : Prop, PInv al s (freed ⟨P0, []⟩ [] ops) := by
    have key : ∀ al : Prop, (al → 16 ∣ a) → (∀ op ∈ ops, al → 16 ∣ op.addr) →
        (∀ op ∈ ops, op.isRelease = true → al) → PInv al s (freed ⟨P0, []⟩ [] ops) := by
      intro al k1 k2 k3
      rcases Region.init_spec (al := al) (max size 16 * count) a k1 with h | ⟨r, h, hI⟩
      · simp [init, h] at h0
      · simp only [init, h, Region.Out.bind_ok, Region.Out.pure_eq, Out.ok.injEq] at h0
        subst h0
        exact run_freed (al := al) (s := ⟨⟨max size 16, 0, mem, r⟩, []⟩) (fl := []) ⟨⟨[], hI, by simp, by simp⟩, Nat.le_max_right _ _, rfl⟩ ops k2 k3 s hs
    rcases hp with ⟨h1, h2⟩ | h
    · exact ⟨True, key True (fun _ => h1) (fun o ho _ => h2 o ho) (fun _ _ _ => trivial)⟩
    · exact ⟨False, key False (fun h => h.elim) (fun _ _ h => h.elim)
        (fun o ho hr => by simp [h o ho] at hr)⟩
  obtain ⟨al, hI⟩ := hI
  have hch := hI.chain
  split
  · rename_i p fl he
    rw [he] at hch
    obtain ⟨h1, h2, _⟩ := hch
    exact ⟨{ s.pool with top := s.pool.mem s.pool.top }, by simp [alloc, h1, h2], rfl⟩
  · rename_i he
    rw [he] at hch
    have : s.pool.top = 0 := hch
    simp [alloc, this]

/-- Three blocks, two freed (the client had scribbled over them), one reused. -/
def demo : List Op := [.alloc 0, .alloc 0, .alloc 4096, .write 0 0 77, .write 1 0 99, .free 1, .free 0, .alloc 0]

example : Platform 1024 demo ∧ ∃ P0 s p fl, init 8 1 (fun _ => 5) 1024 = .ok P0 ∧
    run ⟨P0, []⟩ demo = .ok s ∧ s.out.length = 2 ∧ freed ⟨P0, []⟩ [] demo = p :: fl ∧ p ∉ s.out := by
  refine ⟨.inl ⟨by decide, by decide⟩, _, _, _, _, rfl, rfl, by decide, rfl, by decide⟩

end Verif.Pool
