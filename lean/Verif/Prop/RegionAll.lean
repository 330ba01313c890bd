import Verif.Prop.Pool
import Mathlib.Tactic.SplitIfs

/-!
# C04, C05, C06 and C08 without the platform assumption

Histories here may pop any pointer whatsoever and `malloc` may return any address that does not
overlap an allocated block.
-/

namespace Verif.Region

/-- Operations on a region; `pop` takes any pointer. -/
inductive AnyOp where
  | alloc (size a : Nat)
  | tmpalloc (size a : Nat)
  | pop (ptr a : Nat)
  | release (a : Nat)

/-- One operation. -/
def anyStep (r : Reg) : AnyOp → Out Reg
  | .alloc size a => do let (r, _) ← alloc r size a; return r
  | .tmpalloc size a => do let (r, _) ← tmpalloc r size a; return r
  | .pop ptr a => pop r ptr a
  | .release a => release r a

/-- A history. -/
def anyRun (r : Reg) : List AnyOp → Out Reg
  | [] => .ok r
  | op :: ops => do
    let r ← anyStep r op
    anyRun r ops

/-- A history from `aa_mem_region_init`. -/
def anyStart (size a : Nat) (ops : List AnyOp) : Out Reg := do
  let r ← init size a
  anyRun r ops

/-- The states of all histories. -/
def AnyReach (r : Reg) : Prop := ∃ size a ops, anyStart size a ops = .ok r

/-- What every operation keeps. -/
structure Weak (r : Reg) : Prop where
  perm : r.heap.Perm r.node
  ok : ChunksOk r.node
  top : ∃ c cs, r.node = c :: cs ∧ c.base ≤ r.head

theorem Weak.cons {cs heap : List Chunk} {n a : Nat} (hp : heap.Perm cs) (hok : ChunksOk cs)
    (h : nodeAlloc heap n a = .ok (⟨a + HDR, n + ALIGN⟩, ⟨a + HDR, n + ALIGN⟩ :: heap)) (head : Nat)
    (hh : a + HDR ≤ head) :
    Weak ⟨head, ⟨a + HDR, n + ALIGN⟩ :: cs, ⟨a + HDR, n + ALIGN⟩ :: heap⟩ := by
  obtain ⟨-, -, h0, hd⟩ := nodeAlloc_ok h
  exact ⟨hp.cons _, hok.cons hp h0 hd, _, _, rfl, hh⟩

theorem grow_weak {r : Reg} (h : Weak r) (size a : Nat) :
    grow r size a = .oracle ∨ ∃ r', grow r size a = .ok r' ∧ Weak r' ∧
      ∃ c cs, r'.node = c :: cs ∧ c.base ≤ r'.head ∧ r'.head + size ≤ c.fin := by
  obtain ⟨head, node, heap⟩ := r
  obtain ⟨hp, hok, c, cs, hn, ht⟩ := h
  simp only at hp hok hn ht
  subst hn
  have hge := align_ge (a + HDR)
  have hlt := align_lt (a + HDR)
  have hns : size + ALIGN ≤ max (2 * c.size) (size + ALIGN) := Nat.le_max_right _ _
  unfold grow
  simp only
  split_ifs with hc
  · obtain ⟨heap', hf, hp'⟩ := nodeFree_perm hp
    rw [hf]
    rcases nodeAlloc_cases heap' (max (2 * c.size) (size + ALIGN)) a with h | ⟨h, -⟩
    · exact Or.inl (by simp [h])
    · refine Or.inr ⟨_, by simp only [h, Out.bind_ok, Out.pure_eq], Weak.cons hp' hok.tail h _ hge,
        _, _, rfl, hge, ?_⟩
      simp only [Chunk.fin, ALIGN] at *
      omega
  · rcases nodeAlloc_cases heap (max (2 * c.size) (size + ALIGN)) a with h | ⟨h, -⟩
    · exact Or.inl (by simp [h])
    · refine Or.inr ⟨_, by simp only [h, Out.bind_ok, Out.pure_eq], Weak.cons hp hok h _ hge,
        _, _, rfl, hge, ?_⟩
      simp only [Chunk.fin, ALIGN] at *
      omega

theorem tmpalloc_weak {r : Reg} (h : Weak r) (size a : Nat) :
    tmpalloc r size a = .oracle ∨ ∃ r', tmpalloc r size a = .ok (r', r'.head) ∧ Weak r' ∧
      ∃ c cs, r'.node = c :: cs ∧ c.base ≤ r'.head ∧ r'.head + size ≤ c.fin := by
  obtain ⟨c, cs, hn, ht⟩ := h.top
  unfold tmpalloc
  rw [hn]
  simp only
  split_ifs with hc
  · rcases grow_weak h size a with h' | ⟨r', h', hw, hx⟩
    · exact Or.inl (by simp [h'])
    · exact Or.inr ⟨r', by simp [h'], hw, hx⟩
  · exact Or.inr ⟨r, rfl, h, c, cs, hn, ht, by omega⟩

theorem alloc_weak {r : Reg} (h : Weak r) (size a : Nat) :
    alloc r size a = .oracle ∨ ∃ r' p, alloc r size a = .ok (r', p) ∧ Weak r' := by
  obtain ⟨c, cs, hn, ht⟩ := h.top
  have hw : ∀ (r' : Reg), Weak r' → Weak { r' with head := align (r'.head + size) } := by
    rintro r' ⟨h1, h2, c', cs', h3, h4⟩
    have := align_ge (r'.head + size)
    exact ⟨h1, h2, c', cs', h3, by simp only; omega⟩
  unfold alloc
  rw [hn]
  simp only
  split_ifs with hc
  · rcases grow_weak h size a with h' | ⟨r', h', hw', -⟩
    · exact Or.inl (by simp [h'])
    · exact Or.inr ⟨_, r'.head, by simp only [h', Out.bind_ok, Out.pure_eq], hw r' hw'⟩
  · exact Or.inr ⟨_, r.head, rfl, hn ▸ hw r h⟩

theorem popLoop_weak (ptr : Nat) : ∀ (cs heap : List Chunk) (n : Nat), heap.Perm cs → ChunksOk cs →
    ∃ n' cs' heap', popLoop heap ptr n cs = .ok (n', cs', heap') ∧ heap'.Perm cs' ∧ ChunksOk cs' := by
  intro cs
  induction cs with
  | nil => exact fun heap n hp hok => ⟨n, [], heap, rfl, hp, hok⟩
  | cons c cs ih =>
    intro heap n hp hok
    unfold popLoop
    split_ifs with hc
    · exact ⟨_, _, _, rfl, hp, hok⟩
    · obtain ⟨heap', hf, hp'⟩ := nodeFree_perm hp
      rw [hf]
      exact ih heap' _ hp' hok.tail

theorem pop_weak {r : Reg} (h : Weak r) (ptr a : Nat) :
    pop r ptr a = .oracle ∨ ∃ r', pop r ptr a = .ok r' ∧ Weak r' := by
  obtain ⟨head, node, heap⟩ := r
  obtain ⟨hp, hok, c, cs, hn, ht⟩ := h
  simp only at hp hok hn ht
  subst hn
  have hge := align_ge (a + HDR)
  unfold pop
  simp only
  split_ifs with hc
  · refine Or.inr ⟨_, rfl, hp, hok, c, cs, rfl, ?_⟩
    simp only [inNode, decide_eq_true_eq] at hc
    have := align_ge ptr
    simp only
    omega
  · obtain ⟨heap', hf, hp'⟩ := nodeFree_perm hp
    obtain ⟨n', cs', heap2, hl, hp2, hok2⟩ := popLoop_weak ptr cs heap' c.size hp' hok.tail
    rw [hf]
    simp only [Out.bind_ok, hl]
    cases cs' with
    | nil =>
      simp only
      rcases nodeAlloc_cases heap2 n' a with h | ⟨h, -⟩
      · exact Or.inl (by simp [h])
      · exact Or.inr ⟨_, by simp only [h, Out.bind_ok, Out.pure_eq], Weak.cons hp2 hok2 h _ hge⟩
    | cons q qs =>
      simp only
      split_ifs with hq
      · obtain ⟨heap3, hf3, hp3⟩ := nodeFree_perm hp2
        rw [hf3]
        rcases nodeAlloc_cases heap3 (n' + (q.fin - ptr)) a with h | ⟨h, -⟩
        · exact Or.inl (by simp [h])
        · exact Or.inr ⟨_, by simp only [h, Out.bind_ok, Out.pure_eq],
            Weak.cons hp3 hok2.tail h _ hge⟩
      · rcases nodeAlloc_cases heap2 (n' + (q.fin - ptr)) a with h | ⟨h, -⟩
        · exact Or.inl (by simp [h])
        · exact Or.inr ⟨_, by simp only [h, Out.bind_ok, Out.pure_eq], Weak.cons hp2 hok2 h _ hge⟩

theorem release_weak {r : Reg} (h : Weak r) (a : Nat) :
    release r a = .oracle ∨ ∃ r' c, release r a = .ok r' ∧ Weak r' ∧ r'.node = [c] ∧
      r'.head = c.base ∧ total r.node ≤ c.size ∧
      (1 < r.node.length → c.size = total r.node + ALIGN) := by
  obtain ⟨head, node, heap⟩ := r
  obtain ⟨hp, hok, c, cs, hn, ht⟩ := h
  simp only at hp hok hn ht
  subst hn
  cases cs with
  | nil =>
    exact Or.inr ⟨_, c, rfl, ⟨hp, hok, c, [], rfl, (Nat.le_refl _)⟩, rfl, rfl, by simp [total], by simp⟩
  | cons d cs =>
    unfold release
    simp only [freeAll_spec hp, Out.bind_ok]
    rcases nodeAlloc_cases [] (total (c :: d :: cs)) a with h | ⟨h, -⟩
    · exact Or.inl (by simp [h])
    · refine Or.inr ⟨_, ⟨a + HDR, total (c :: d :: cs) + ALIGN⟩, by
        simp only [h, Out.bind_ok, Out.pure_eq],
        Weak.cons (List.Perm.refl []) ⟨List.Pairwise.nil, by simp⟩ h _ (Nat.le_refl _), rfl, rfl,
        Nat.le_add_right _ _, fun _ => rfl⟩

theorem anyStep_weak {r : Reg} (h : Weak r) (op : AnyOp) :
    anyStep r op = .oracle ∨ ∃ r', anyStep r op = .ok r' ∧ Weak r' := by
  cases op with
  | alloc size a =>
    rcases alloc_weak h size a with h' | ⟨r', p, h', hw⟩
    · exact Or.inl (by simp [anyStep, h'])
    · exact Or.inr ⟨r', by simp [anyStep, h'], hw⟩
  | tmpalloc size a =>
    rcases tmpalloc_weak h size a with h' | ⟨r', h', hw, -⟩
    · exact Or.inl (by simp [anyStep, h'])
    · exact Or.inr ⟨r', by simp [anyStep, h'], hw⟩
  | pop ptr a => exact pop_weak h ptr a
  | release a =>
    rcases release_weak h a with h' | ⟨r', c, h', hw, -⟩
    · exact Or.inl h'
    · exact Or.inr ⟨r', h', hw⟩

theorem anyStart_weak (size a : Nat) (ops : List AnyOp) :
    anyStart size a ops = .oracle ∨ ∃ r, anyStart size a ops = .ok r ∧ Weak r := by
  have key : ∀ (ops : List AnyOp) (r : Reg), Weak r →
      anyRun r ops = .oracle ∨ ∃ r', anyRun r ops = .ok r' ∧ Weak r' := by
    intro ops
    induction ops with
    | nil => exact fun r h => Or.inr ⟨r, rfl, h⟩
    | cons op ops ih =>
      intro r h
      rcases anyStep_weak h op with h' | ⟨r', h', hw⟩
      · exact Or.inl (by simp [anyRun, h'])
      · rcases ih r' hw with h2 | ⟨r2, h2, hw2⟩
        · exact Or.inl (by simp [anyRun, h', h2])
        · exact Or.inr ⟨r2, by simp [anyRun, h', h2], hw2⟩
  unfold anyStart init
  rcases nodeAlloc_cases [] size a with h | ⟨h, -⟩
  · exact Or.inl (by simp [h])
  · simp only [h, Out.bind_ok, Out.pure_eq]
    exact key ops _ (Weak.cons (List.Perm.refl []) ⟨List.Pairwise.nil, by simp⟩ h _ (align_ge _))

theorem AnyReach.weak {r : Reg} (h : AnyReach r) : Weak r := by
  obtain ⟨size, a, ops, h⟩ := h
  rcases anyStart_weak size a ops with h' | ⟨r', h', hw⟩
  · rw [h] at h'; simp at h'
  · rw [h] at h'
    obtain rfl : r = r' := by simpa using h'
    exact hw

/-- **C04**. After every history — whatever sizes, placements and popped pointers — the chunks
allocated in the heap are exactly the chunks of the region, each once; no chunk is ever freed twice
(that would be the outcome `ub`); destroying the region leaves no chunk allocated. -/
theorem C04_no_leak_no_double_free (size a : Nat) (ops : List AnyOp) :
    anyStart size a ops = .oracle ∨ ∃ r, anyStart size a ops = .ok r ∧
      r.heap.Perm r.node ∧ r.node.Nodup ∧ ∃ r', destroy r = .ok r' ∧ r'.heap = [] := by
  rcases anyStart_weak size a ops with h | ⟨r, h, hw⟩
  · exact Or.inl h
  · refine Or.inr ⟨r, h, hw.perm, ?_, ?_⟩
    · refine (List.Pairwise.and_mem.1 hw.ok.apart).imp ?_
      intro c d ⟨hc, hd, h⟩ he
      subst he
      have := hw.ok.pos c hc
      simp only [Chunk.apart, HDR, ALIGN] at *
      omega
    · exact ⟨{ r with node := [], heap := [] },
        by simp only [destroy, freeAll_spec hw.perm, Out.bind_ok, Out.pure_eq], rfl⟩

/-- An 8-byte aligned `malloc`, a release, growth, and a stale pointer. -/
example : ∃ r, anyStart 64 8 [.release 0, .alloc 4 0, .alloc 1000 4096, .pop 24 8192] = .ok r ∧
    r.heap.length = 1 := ⟨_, rfl, by decide⟩

/-- **C05**. In every state of every history, releasing leaves one chunk whose free space is at least
the sum of the sizes of all previous chunks. -/
theorem C05_release_keeps_capacity (r : Reg) (hr : AnyReach r) (a : Nat) :
    release r a = .oracle ∨ ∃ r' n, release r a = .ok r' ∧ chunkCount r' = 1 ∧
      freesize r' = .ok n ∧ total r.node ≤ n := by
  rcases release_weak hr.weak a with h | ⟨r', c, h, -, hn, hh, ht, -⟩
  · exact Or.inl h
  · refine Or.inr ⟨r', if r'.head ≥ c.fin then 0 else c.fin - r'.head, h, by simp [chunkCount, hn],
      by simp [freesize, hn], ?_⟩
    rw [hh]
    have hfin : c.fin = c.base + c.size := rfl
    by_cases hz : c.base ≥ c.fin
    · rw [if_pos hz]; omega
    · rw [if_neg hz]; omega

theorem allocs_fit (r : Reg) (c : Chunk) (cs : List Chunk) (ns : List Nat) (hn : r.node = c :: cs)
    (hfit : align r.head + (ns.map align).sum ≤ c.fin) :
    ∃ r', allocs r ns = .ok r' ∧ r'.node = r.node ∧ r'.heap = r.heap := by
  induction ns generalizing r with
  | nil => exact ⟨r, rfl, rfl, rfl⟩
  | cons n ns ih =>
    simp only [List.map_cons, List.sum_cons] at hfit
    have h1 := align_ge n
    have h2 := align_ge r.head
    have hal : align (align (r.head + n)) ≤ align r.head + align n := by
      simp only [align, ALIGN]; omega
    have hle : ¬ r.head + n > c.fin := by omega
    obtain ⟨r', hr', e1, e2⟩ := ih { r with head := align (r.head + n) } hn (by simp only; omega)
    refine ⟨r', ?_, e1, e2⟩
    simp only [allocs, alloc, hn, hle, if_false, Out.bind_ok]
    rw [← hn]
    exact hr'

/-- **C05**, reuse: after releasing a region of several chunks, allocations whose padded total is at
most the sum of the sizes of the previous chunks never call `malloc`; after releasing a region of one
chunk the same holds for what fits between the first aligned byte and its end.  Missing: one chunk at
an unaligned address and a padded total that fits only without the alignment of the first block
(`C05_violates_unaligned`). -/
theorem C05_reuse_partial (r : Reg) (hr : AnyReach r) (a : Nat) (r' : Reg) (h : release r a = .ok r')
    (ns : List Nat) :
    (1 < r.node.length → (ns.map align).sum ≤ total r.node →
      ∃ r'', allocs r' ns = .ok r'' ∧ r''.node = r'.node ∧ r''.heap = r'.heap) ∧
    (∀ c, r.node = [c] → align c.base + (ns.map align).sum ≤ c.fin →
      ∃ r'', allocs r' ns = .ok r'' ∧ r''.node = r'.node ∧ r''.heap = r'.heap) := by
  rcases release_weak hr.weak a with h' | ⟨r1, c, h', -, hn, hh, ht, hs⟩
  · rw [h] at h'; simp at h'
  · rw [h] at h'
    obtain rfl : r' = r1 := by simpa using h'
    refine ⟨fun h1 h2 => allocs_fit r' c [] ns hn ?_, fun d hd h2 => ?_⟩
    · rw [hh]
      have := hs h1
      have := align_lt c.base
      simp only [Chunk.fin, ALIGN] at *
      omega
    · obtain ⟨head, node, heap⟩ := r
      simp only at hd
      subst hd
      simp only [release, Out.ok.injEq] at h
      subst h
      refine allocs_fit _ d [] ns rfl ?_
      have : align d.base = align (align d.base) := (align_of_dvd (align_dvd _)).symm
      simp only
      omega

/-- **C05 fails** in its last part when `malloc` is only 8-byte aligned: a released chunk of 80 bytes
needs to grow for five blocks of 16 bytes. -/
theorem C05_violates_unaligned :
    ∃ r r', AnyReach r ∧ release r 0 = .ok r' ∧ freesize r' = .ok 80 ∧
      ([16, 16, 16, 16, 16].map align).sum = 80 ∧ allocs r' [16, 16, 16, 16, 16] = .oracle :=
  ⟨_, _, ⟨64, 8, [], rfl⟩, rfl, by decide, by decide, by decide⟩

/-- Two chunks are released; then as much fits as in both. -/
example : ∃ r, AnyReach r ∧ 1 < r.node.length ∧ ∃ r', release r 16384 = .ok r' :=
  ⟨_, ⟨64, 8, [.alloc 20 0, .alloc 100 4096], rfl⟩, by decide, _, rfl⟩

/-- **C06**. In every state of every history, an alloc of at most the size of a preceding tmpalloc
returns the same pointer, allocates no chunk (whatever `malloc` would answer), and the whole
temporary size was usable. -/
theorem C06_tmpalloc_alloc_same (r0 : Reg) (hr : AnyReach r0) (n m a a' : Nat) (hmn : m ≤ n) (r : Reg)
    (p : Nat) (ht : tmpalloc r0 n a = .ok (r, p)) :
    Owned r p n ∧ ∃ r', alloc r m a' = .ok (r', p) ∧ r'.node = r.node ∧ r'.heap = r.heap := by
  rcases tmpalloc_weak hr.weak n a with h | ⟨r1, h, hw, c, cs, hc, hc1, hc2⟩
  · rw [ht] at h; simp at h
  · rw [ht] at h
    simp only [Out.ok.injEq, Prod.mk.injEq] at h
    obtain ⟨rfl, rfl⟩ := h
    refine ⟨⟨c, hw.perm.mem_iff.2 (by rw [hc]; simp), hc1, hc2⟩, ?_⟩
    have hle : ¬ r.head + m > c.fin := by omega
    exact ⟨{ r with head := align (r.head + m) }, by simp only [alloc, hc, hle, if_false], rfl, rfl⟩

/-- The tmpalloc of C06 does not fail unless `malloc` does. -/
theorem C06_defined (r0 : Reg) (hr : AnyReach r0) (n a : Nat) : tmpalloc r0 n a ≠ .ub := by
  rcases tmpalloc_weak hr.weak n a with h | ⟨r1, h, -⟩ <;> rw [h] <;> simp

/-- A grown region at an unaligned address. -/
example : ∃ r0 r p, AnyReach r0 ∧ tmpalloc r0 200 4104 = .ok (r, p) ∧ r.node.length = 2 :=
  ⟨_, _, _, ⟨64, 8, [.release 0, .alloc 20 0], rfl⟩, rfl, by decide⟩

end Verif.Region

namespace Verif.Pool

open Verif.Region (Out)

/-- **C08**. For every history of allocations, frees of allocated blocks and writes to allocated
blocks, and every placement of the chunks: the blocks allocated at the end are disjoint, and the
block that the next allocation returns is not one of them and overlaps none of them. -/
theorem C08_pool_never_twice (size count : Nat) (mem : Nat → Nat) (a : Nat) (ops : List Op)
    (hops : ∀ op ∈ ops, op.isRelease = false) (a' : Nat) (s : St)
    (hs : start size count mem a ops = .ok s) :
    s.out.Pairwise (fun p q => p + size ≤ q ∨ q + size ≤ p) ∧
    ∀ P p, alloc s.pool a' = .ok (P, p) → 0 < size →
      p ∉ s.out ∧ (∀ q ∈ s.out, p + size ≤ q ∨ q + size ≤ p) ∧ Region.Owned P.reg p size := by
  have hp : Platform a ops := Or.inr hops
  have hp' : Platform a (ops ++ [.alloc a']) := by
    refine Or.inr fun op ho => ?_
    rcases List.mem_append.1 ho with h | h
    · exact hops op h
    · rw [List.mem_singleton] at h
      subst h
      rfl
  have hrun : ∀ (l1 l2 : List Op) (s s' : St), run s l1 = .ok s' → run s (l1 ++ l2) = run s' l2 := by
    intro l1
    induction l1 with
    | nil => intro l2 s s' h; simp only [run, Out.ok.injEq] at h; rw [h]; rfl
    | cons op l1 ih =>
      intro l2 s s' h
      cases hst : step s op with
      | ub => simp [run, hst] at h
      | oracle => simp [run, hst] at h
      | ok s1 =>
        simp only [run, hst, Region.Out.bind_ok, List.cons_append] at h ⊢
        exact ih l2 s1 s' h
  refine ⟨?_, fun P p hal hpos => ?_⟩
  · rcases C08_pool_blocks_disjoint_partial size count mem a ops hp with h | ⟨s', h, h1, -⟩
    · rw [hs] at h; simp at h
    · rw [hs] at h
      obtain rfl : s = s' := by simpa using h
      exact h1
  · have hst : start size count mem a (ops ++ [.alloc a']) = .ok ⟨P, p :: s.out⟩ := by
      unfold start at hs ⊢
      cases hi : init size count mem a with
      | ub => simp [hi] at hs
      | oracle => simp [hi] at hs
      | ok P0 =>
        simp only [hi, Region.Out.bind_ok] at hs ⊢
        rw [hrun _ _ _ _ hs]
        simp [run, step, hal]
    rcases C08_pool_blocks_disjoint_partial size count mem a _ hp' with h | ⟨s', h, h1, h2, h3⟩
    · rw [hst] at h; simp at h
    · rw [hst] at h
      obtain rfl : (⟨P, p :: s.out⟩ : St) = s' := by simpa using h
      exact ⟨(List.nodup_cons.1 h2).1, (List.pairwise_cons.1 h1).1, h3 p (by simp)⟩

/-- **C08**: such histories never have undefined behaviour. -/
theorem C08_pool_defined (size count : Nat) (mem : Nat → Nat) (a : Nat) (ops : List Op)
    (hops : ∀ op ∈ ops, op.isRelease = false) : start size count mem a ops ≠ .ub := by
  rcases C08_pool_blocks_disjoint_partial size count mem a ops (Or.inr hops) with h | ⟨s', h, -⟩ <;>
    rw [h] <;> simp

/-- **C08**, order of reuse: an allocation returns the most recently freed block that has not been
reused, and takes fresh memory only if there is none. -/
theorem C08_pool_lifo (size count : Nat) (mem : Nat → Nat) (a : Nat) (ops : List Op)
    (hops : ∀ op ∈ ops, op.isRelease = false)
    (P0 : Pool) (h0 : init size count mem a = .ok P0) (s : St) (hs : run ⟨P0, []⟩ ops = .ok s) (a' : Nat) :
    match freed ⟨P0, []⟩ [] ops with
    | p :: _ => ∃ P, alloc s.pool a' = .ok (P, p) ∧ P.reg = s.pool.reg
    | [] => alloc s.pool a' = (do
        let (r, p) ← Region.alloc s.pool.reg s.pool.size a'
        pure ({ s.pool with reg := r }, p)) :=
  C08_pool_lifo_partial size count mem a ops (Or.inr hops) P0 h0 s hs a'

/-- A freed block is reused; the chunks are not 16-byte aligned. -/
def demo8 : List Op := [.alloc 0, .alloc 4104, .write 0 0 77, .free 1, .alloc 0]

example : (∀ op ∈ demo8, op.isRelease = false) ∧
    ∃ s, start 8 1 (fun _ => 5) 1032 demo8 = .ok s ∧ s.out.length = 2 := by
  refine ⟨by decide, _, rfl, by decide⟩

end Verif.Pool
