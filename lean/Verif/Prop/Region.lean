import Verif.Proof.Region

/-! Properties C01-C07: the region allocator (src/mem.c). -/

namespace Verif.Region

/-- Specification: the `n` bytes at `p` belong to one currently allocated chunk. -/
def Owned (r : Reg) (p n : Nat) : Prop :=
  ∃ c ∈ r.heap, c.base ≤ p ∧ p + n ≤ c.base + c.size

/-- Specification: two byte ranges are disjoint. -/
def Disj (b b' : Blk) : Prop := b.addr + b.size ≤ b'.addr ∨ b'.addr + b'.size ≤ b.addr

/-- Platform assumption: `malloc` returns 16-byte aligned addresses (as on LP64
glibc), or the client never calls `aa_mem_region_release`. -/
def Platform (a : Nat) (ops : List Op) : Prop :=
  (16 ∣ a ∧ ∀ op ∈ ops, 16 ∣ op.addr) ∨ (∀ op ∈ ops, op.isRelease = false)

theorem platform_start {a : Nat} {ops : List Op} (hp : Platform a ops) (size : Nat) :
    ∃ al : Prop, (start size a ops = .oracle ∨ ∃ s', start size a ops = .ok s' ∧ Inv al s') ∧
      (al ∨ ∀ op ∈ ops, op.isRelease = false) := by
  rcases hp with ⟨h1, h2⟩ | h
  · exact ⟨True, start_spec size a (fun _ => h1) ops (fun op ho => ⟨fun _ => h2 op ho, fun _ => trivial⟩),
      .inl trivial⟩
  · exact ⟨False, start_spec size a (fun h => h.elim) ops
      (fun op ho => ⟨fun h => h.elim, fun h' => by simp [h op ho] at h'⟩), .inr h⟩

theorem Stk.pairwise {cs h bs} (hok : ChunksOk cs) (hs : Stk cs h bs) : bs.Pairwise Disj := by
  induction hs with
  | nil => exact .nil
  | blk c cs h b bs h1 h2 h3 h4 h5 h6 ih =>
    refine List.pairwise_cons.2 ⟨?_, ih hok⟩
    intro b' hb'
    -- either in the same chunk below, or in another chunk
    have key : ∀ {cs' h' bs'}, Stk cs' h' bs' → ∀ c0 cs0, cs' = c0 :: cs0 → b' ∈ bs' →
        (b'.addr + b'.size ≤ h' ∨ ∃ d ∈ cs0, align d.base ≤ b'.addr ∧ b'.addr + b'.size ≤ d.fin) := by
      intro cs' h' bs' hs
      induction hs with
      | nil => intro _ _ _ hm; simp at hm
      | blk c cs h b bs k1 k2 k3 k4 k5 k6 ih2 =>
        intro c0 cs0 he hm
        rcases List.mem_cons.1 hm with rfl | hm
        · exact .inl k3
        · rcases ih2 c0 cs0 he hm with h' | h'
          · left; omega
          · exact .inr h'
      | next c cs h h' bs k1 _ =>
        intro c0 cs0 he hm
        obtain ⟨d, hd, h⟩ := k1.mem hm
        right
        obtain ⟨rfl, rfl⟩ := List.cons.inj he
        exact ⟨d, hd, h.1, h.2.1⟩
    rcases key h6 c cs rfl hb' with h' | ⟨d, hd, hd1, hd2⟩
    · exact .inr h'
    · have hap := (List.pairwise_cons.1 hok.apart).1 d hd
      have p1 := hok.pos c (by simp)
      have p2 := hok.pos d (by simp [hd])
      have := align_ge c.base
      have := align_ge d.base
      simp only [Disj, Chunk.apart, Chunk.fin, HDR] at *
      omega
  | next c cs h h' bs _ ih => exact ih hok.tail

/-- **C01**. After any history, every nonempty live block lies in memory the
region owns, any two live blocks are disjoint, and no undefined behaviour occurred. -/
theorem C01_region_blocks_owned_disjoint_partial (size a : Nat) (ops : List Op) (hp : Platform a ops) :
    start size a ops = .oracle ∨ ∃ s, start size a ops = .ok s ∧
      (∀ b ∈ s.stk, Owned s.reg b.addr b.size) ∧ s.stk.Pairwise Disj := by
  obtain ⟨al, h | ⟨s, hs, hI⟩, _⟩ := platform_start hp size
  · exact .inl h
  · refine .inr ⟨s, hs, ?_, hI.stk.pairwise hI.ok⟩
    intro b hb
    obtain ⟨c, hc, h1, h2, _⟩ := hI.stk.mem hb
    have := align_ge c.base
    exact ⟨c, hI.perm.mem_iff.2 hc, by omega, h2⟩

/-- **C01**, the returned block: in every reachable state `aa_mem_region_alloc`
returns `size` owned bytes that do not touch any live block, and remembers a
nonempty block. -/
theorem C01_alloc_fresh_partial (size a : Nat) (ops : List Op) (s : St) (n a' : Nat) (r : Reg) (p : Nat)
    (hp : Platform a (ops ++ [.alloc n a'])) (hs : start size a ops = .ok s)
    (hr : alloc s.reg n a' = .ok (r, p)) (hn : 0 < n) :
    Owned r p n ∧ (∀ b ∈ s.stk, Disj ⟨p, n⟩ b) ∧ ∀ b ∈ s.stk, Owned r b.addr b.size := by
  have hp' : Platform a ops := by
    rcases hp with ⟨h1, h2⟩ | h
    · exact .inl ⟨h1, fun o ho => h2 o (List.mem_append_left _ ho)⟩
    · exact .inr fun o ho => h o (List.mem_append_left _ ho)
  obtain ⟨al, h | ⟨s', hs', hI⟩, hal⟩ := platform_start hp' size
  · rw [hs] at h; simp at h
  · rw [hs] at hs'
    obtain rfl : s = s' := by simpa using hs'
    have hI2 : ∃ al : Prop, Inv al s ∧ (al → 16 ∣ a') := by
      rcases hp with ⟨h1, h2⟩ | h
      · rcases hal with h' | h'
        · exact ⟨al, hI, fun _ => h2 (.alloc n a') (by simp)⟩
        · exact ⟨al, hI, fun _ => h2 (.alloc n a') (by simp)⟩
      · exact ⟨False, ⟨hI.perm, hI.ok, fun h => h.elim, hI.hdvd, hI.top, hI.stk⟩, fun h => h.elim⟩
    obtain ⟨al2, hI2, ha2⟩ := hI2
    rcases alloc_spec hI2 n a' ha2 with h | ⟨r', p', h, hIr, _, c, cs, hc, hc1, hc2⟩
    · rw [hr] at h; simp at h
    · rw [hr] at h
      simp only [Out.ok.injEq, Prod.mk.injEq] at h
      obtain ⟨rfl, rfl⟩ := h
      have hk : keep r ⟨p, n⟩ s.stk = ⟨p, n⟩ :: s.stk := by simp [keep, hn]
      rw [hk] at hIr
      have hpw := hIr.stk.pairwise hIr.ok
      refine ⟨⟨c, hIr.perm.mem_iff.2 (by rw [hc]; simp), hc1, hc2⟩, (List.pairwise_cons.1 hpw).1, ?_⟩
      intro b hb
      obtain ⟨c, hc, h1, h2, _⟩ := hIr.stk.mem (List.mem_cons_of_mem _ hb)
      have := align_ge c.base
      exact ⟨c, hIr.perm.mem_iff.2 hc, by omega, h2⟩

/-- A history with growth, a mark, pops through a chunk boundary and a release. -/
def demoOps : List Op :=
  [.alloc 20 0, .mark, .alloc 100 4096, .alloc 7 0, .pop 3 8192, .alloc 40 0, .release 16384,
   .alloc 24 0, .alloc 300 32768]

example : Platform 1024 demoOps ∧
    ∃ s, start 64 1024 demoOps = .ok s ∧ s.stk.length = 2 ∧ s.reg.node.length = 2 := by
  refine ⟨.inl ⟨by decide, by decide⟩, ?_⟩
  exact ⟨_, rfl, by decide, by decide⟩

/-- C01 needs the platform assumption: with an 8-byte aligned `malloc` (as on
32-bit platforms) a release followed by a small block and growth frees the
chunk that holds the live block. -/
theorem C01_violates_unaligned_malloc :
    ∃ s b, start 64 8 [.release 0, .alloc 4 0, .alloc 1000 4096] = .ok s ∧ b ∈ s.stk ∧
      ¬ Owned s.reg b.addr b.size := by
  refine ⟨_, ⟨24, 4⟩, rfl, by decide, ?_⟩
  simp [Owned, HDR, ALIGN]

/-- **C02**. Every pointer returned by alloc or tmpalloc in any reachable state is
a multiple of 16. -/
theorem C02_region_alignment_partial (size a : Nat) (ops : List Op) (s : St) (n a' : Nat) (r : Reg) (p : Nat)
    (hp : Platform a (ops ++ [.alloc n a'])) (hs : start size a ops = .ok s)
    (hr : alloc s.reg n a' = .ok (r, p) ∨ tmpalloc s.reg n a' = .ok (r, p)) : 16 ∣ p := by
  have hp' : Platform a ops := by
    rcases hp with ⟨h1, h2⟩ | h
    · exact .inl ⟨h1, fun o ho => h2 o (List.mem_append_left _ ho)⟩
    · exact .inr fun o ho => h o (List.mem_append_left _ ho)
  obtain ⟨al, h | ⟨s', hs', hI⟩, hal⟩ := platform_start hp' size
  · rw [hs] at h; simp at h
  · rw [hs] at hs'
    obtain rfl : s = s' := by simpa using hs'
    have hI2 : Inv False s := ⟨hI.perm, hI.ok, fun h => h.elim, hI.hdvd, hI.top, hI.stk⟩
    rcases hr with hr | hr
    · rcases alloc_spec hI2 n a' (fun h => h.elim) with h | ⟨r', p', h, _, h16, _⟩
      · rw [hr] at h; simp at h
      · rw [hr] at h; simp only [Out.ok.injEq, Prod.mk.injEq] at h; rw [h.2]; exact h16
    · rcases tmpalloc_spec hI2 n a' (fun h => h.elim) with h | ⟨r', p', h, _, h16, _⟩
      · rw [hr] at h; simp at h
      · rw [hr] at h; simp only [Out.ok.injEq, Prod.mk.injEq] at h; rw [h.2]; exact h16

example : ∃ s r p, start 64 1024 demoOps = .ok s ∧ alloc s.reg 5 0 = .ok (r, p) ∧
    Platform 1024 (demoOps ++ [.alloc 5 0]) := by
  exact ⟨_, _, _, rfl, rfl, .inl ⟨by decide, by decide⟩⟩

/-- C02 fails after `aa_mem_region_release` when `malloc` is only 8-byte aligned. -/
theorem C02_violates_after_release :
    ∃ s r p, start 64 8 [.release 0] = .ok s ∧ alloc s.reg 4 0 = .ok (r, p) ∧ ¬ 16 ∣ p :=
  ⟨_, _, _, rfl, rfl, by decide⟩

/-- **C02**, the bit-level formula of `AA_ALIGN2` on 64-bit pointers is the
arithmetic rounding used by the model, as long as the sum does not wrap. -/
theorem align_bits (p : BitVec 64) (h : p.toNat + 15 < 2 ^ 64) :
    ((p + 16#64 - 1#64) &&& ~~~(16#64 - 1#64)).toNat = align p.toNat := by
  have e : (p + 16#64 - 1#64) &&& ~~~(16#64 - 1#64) = ((p + 15#64) >>> 4) <<< 4 := by
    have e1 : p + 16#64 - 1#64 = p + 15#64 := by
      rw [BitVec.sub_eq_add_neg, BitVec.add_assoc]; rfl
    have e2 : ~~~(16#64 - 1#64) = (BitVec.allOnes 64) <<< 4 := by decide
    rw [e1, e2]
    generalize p + 15#64 = q
    ext i hi
    rw [BitVec.getElem_and, BitVec.getElem_shiftLeft, BitVec.getElem_shiftLeft]
    by_cases h4 : i < 4
    · simp [h4]
    · have : 4 + (i - 4) = i := by omega
      rw [BitVec.getElem_allOnes]
      simp [h4, BitVec.getLsbD_eq_getElem, hi, this]
  rw [e]
  simp only [BitVec.toNat_shiftLeft, BitVec.toNat_ushiftRight, BitVec.toNat_add, align, ALIGN,
    Nat.shiftRight_eq_div_pow, Nat.shiftLeft_eq, BitVec.toNat_ofNat]
  omega

/-! ### C03: pop -/

/-- Reachable states (any history, platform as above). -/
def Reach (s : St) : Prop :=
  ∃ size a ops, Platform a ops ∧ start size a ops = .ok s

theorem Reach.inv {s : St} (h : Reach s) : Inv False s := by
  obtain ⟨size, a, ops, hp, hs⟩ := h
  obtain ⟨al, h | ⟨s', hs', hI⟩, hal⟩ := platform_start hp size
  · rw [hs] at h; simp at h
  · rw [hs] at hs'
    obtain rfl : s = s' := by simpa using hs'
    exact ⟨hI.perm, hI.ok, fun h => h.elim, hI.hdvd, hI.top, hI.stk⟩

/-- **C03 (partial)**. Popping a remembered entry (a nonempty block, or a saved head
that was strictly inside the top chunk) never has undefined behaviour, leaves
every older entry owned, and makes the space available again: either the head
is back at the popped address, or the head is at the start of an empty chunk.
Missing: saved heads at the start or at/past the end of a chunk, and zero-size
blocks; see the witnesses below. -/
theorem C03_pop_keeps_older_partial (s : St) (hs : Reach s) (k : Nat) (b : Blk) (older : List Blk)
    (hk : s.stk.drop k = b :: older) (a : Nat) :
    pop s.reg b.addr a = .oracle ∨ ∃ r, pop s.reg b.addr a = .ok r ∧
      (∀ b' ∈ older, Owned r b'.addr b'.size) ∧ older.Pairwise Disj ∧
      ((r.head = b.addr ∧ r.node = s.reg.node) ∨ ∃ c cs, r.node = c :: cs ∧ r.head = align c.base) := by
  have hI := hs.inv
  rcases pop_spec hI hk a (fun h => h.elim) with h | ⟨r, h, hIr⟩
  · exact .inl h
  · refine .inr ⟨r, h, ?_, hIr.stk.pairwise hIr.ok, ?_⟩
    · intro b' hb'
      obtain ⟨c, hc, h1, h2, _⟩ := hIr.stk.mem hb'
      have := align_ge c.base
      exact ⟨c, hIr.perm.mem_iff.2 hc, by omega, h2⟩
    · have hb : 16 ∣ b.addr := by
        have hm : b ∈ s.stk := List.mem_of_mem_drop (i := k) (by rw [hk]; simp)
        obtain ⟨c, _, _, _, _, h16⟩ := hI.stk.mem hm
        exact h16
      unfold pop at h
      split at h
      · simp at h
      · split at h
        · simp only [Out.ok.injEq] at h
          left
          rw [← h]
          exact ⟨align_of_dvd hb, rfl⟩
        · right
          rename_i c cs hn _
          cases hf : nodeFree s.reg.heap c with
          | ub => simp [hf] at h
          | oracle => simp [hf] at h
          | ok heap1 =>
            cases hl : popLoop heap1 b.addr c.size cs with
            | ub => simp [hf, hl] at h
            | oracle => simp [hf, hl] at h
            | ok x =>
              obtain ⟨n, p, heap2⟩ := x
              cases p with
              | nil =>
                rcases nodeAlloc_cases heap2 n a with h3 | ⟨h3, _⟩
                · simp [hf, hl, h3] at h
                · simp only [hf, hl, h3, Out.bind_ok, Out.pure_eq, Out.ok.injEq] at h
                  rw [← h]; exact ⟨_, _, rfl, rfl⟩
              | cons q qs =>
                simp only [hf, hl, Out.bind_ok] at h
                split at h
                · cases hf2 : nodeFree heap2 q with
                  | ub => simp [hf2] at h
                  | oracle => simp [hf2] at h
                  | ok heap3 =>
                    rcases nodeAlloc_cases heap3 (n + (q.fin - b.addr)) a with h3 | ⟨h3, _⟩
                    · simp [hf2, h3] at h
                    · simp only [hf2, h3, Out.bind_ok, Out.pure_eq, Out.ok.injEq] at h
                      rw [← h]; exact ⟨_, _, rfl, rfl⟩
                · rcases nodeAlloc_cases heap2 (n + (q.fin - b.addr)) a with h3 | ⟨h3, _⟩
                  · simp [h3] at h
                  · simp only [h3, Out.bind_ok, Out.pure_eq, Out.ok.injEq] at h
                    rw [← h]; exact ⟨_, _, rfl, rfl⟩

example : ∃ s b older, Reach s ∧ s.stk.drop 1 = b :: older ∧ older ≠ [] := by
  refine ⟨_, _, _, ⟨64, 1024, [.alloc 20 0, .alloc 100 4096, .alloc 7 0], .inl ⟨by decide, by decide⟩, rfl⟩,
    rfl, by decide⟩

/-- C03 is violated for a saved head at the end of a chunk: the block allocated
before `aa_mem_region_ptr` is freed by popping the saved pointer. -/
theorem C03_violates_mark_at_end :
    ∃ r0 r1 b mark r2 p r3, init 16 1024 = .ok r0 ∧ alloc r0 32 0 = .ok (r1, b) ∧
      mark = r1.head ∧ alloc r1 16 4096 = .ok (r2, p) ∧ pop r2 mark 8192 = .ok r3 ∧
      Owned r1 b 32 ∧ ¬ Owned r3 b 32 := by
  refine ⟨_, _, _, _, _, _, _, rfl, rfl, rfl, rfl, rfl, ?_, ?_⟩
  · exact ⟨_, List.mem_cons_self, by decide, by decide⟩
  · simp [Owned, HDR, ALIGN, align]

/-- C03 is violated for a saved head at the start of an empty chunk that has an
older chunk below it: growth frees the empty chunk, and popping the saved
pointer then frees every older chunk. -/
theorem C03_violates_mark_at_start :
    ∃ r0 r1 b r2 p r3 mark r4 p' r5, init 16 1024 = .ok r0 ∧ alloc r0 16 0 = .ok (r1, b) ∧
      alloc r1 64 4096 = .ok (r2, p) ∧ pop r2 p 0 = .ok r3 ∧ mark = r3.head ∧
      alloc r3 512 8192 = .ok (r4, p') ∧ pop r4 mark 16384 = .ok r5 ∧
      Owned r4 b 16 ∧ ¬ Owned r5 b 16 := by
  refine ⟨_, _, _, _, _, _, _, _, _, _, rfl, rfl, rfl, rfl, rfl, rfl, rfl, ?_, ?_⟩
  · exact ⟨_, List.mem_cons_of_mem _ List.mem_cons_self, by decide, by decide⟩
  · simp [Owned, HDR, ALIGN, align]

/-! ### C04: no leak, no double free -/

/-- **C04**. After any history the chunks allocated in the heap are exactly the
chunks of the region, each once; no chunk is ever freed twice (no undefined
behaviour); and destroying the region leaves no chunk allocated. -/
theorem C04_no_leak_no_double_free_partial (size a : Nat) (ops : List Op) (hp : Platform a ops) :
    start size a ops = .oracle ∨ ∃ s, start size a ops = .ok s ∧
      s.reg.heap.Perm s.reg.node ∧ s.reg.node.Nodup ∧
      ∃ r, destroy s.reg = .ok r ∧ r.heap = [] := by
  obtain ⟨al, h | ⟨s, hs, hI⟩, _⟩ := platform_start hp size
  · exact .inl h
  · refine .inr ⟨s, hs, hI.perm, ?_, ?_⟩
    · refine (List.Pairwise.and_mem.1 hI.ok.apart).imp ?_
      intro c d ⟨hc, hd, h⟩ he
      subst he
      have := hI.ok.pos c hc
      simp only [Chunk.apart, HDR, ALIGN] at *
      omega
    · exact ⟨{ s.reg with node := [], heap := [] },
        by simp only [destroy, freeAll_spec hI.perm, Out.bind_ok, Out.pure_eq], rfl⟩

example : ∃ s, start 64 1024 demoOps = .ok s ∧ s.reg.heap.length = 2 := ⟨_, rfl, by decide⟩

/-! ### C05: release -/

/-- **C05**. Releasing a region leaves one chunk, whose free space is at least the
sum of the sizes of all previous chunks. -/
theorem C05_release_keeps_capacity_partial (s : St) (hs : Reach s) (a : Nat) :
    release s.reg a = .oracle ∨ ∃ r n, release s.reg a = .ok r ∧ chunkCount r = 1 ∧
      freesize r = .ok n ∧ total s.reg.node ≤ n := by
  have hI := hs.inv
  obtain ⟨c, cs, hn, _⟩ := hI.top
  have hperm := hI.perm
  unfold release
  rw [hn] at hperm ⊢
  cases cs with
  | nil =>
    right
    refine ⟨_, if c.base ≥ c.fin then 0 else c.fin - c.base, rfl, by simp [chunkCount],
      by simp only [freesize], ?_⟩
    split <;> simp only [total, Chunk.fin] at * <;> omega
  | cons d cs =>
    simp only [freeAll_spec hperm, Out.bind_ok]
    rcases nodeAlloc_cases [] (total (c :: d :: cs)) a with h | ⟨h, h0, hd⟩
    · left; simp [h]
    · right
      simp only [h, Out.bind_ok, Out.pure_eq]
      refine ⟨_, if a + HDR ≥ a + HDR + (total (c :: d :: cs) + ALIGN) then 0 else
        a + HDR + (total (c :: d :: cs) + ALIGN) - (a + HDR), rfl, by simp [chunkCount],
        rfl, ?_⟩
      split <;> omega

/-- Run a list of allocations (all served with oracle answer 0, which `malloc`
never returns: needing a chunk would end in `oracle`). -/
def allocs (r : Reg) : List Nat → Out Reg
  | [] => .ok r
  | n :: ns => do
    let (r, _) ← alloc r n 0
    allocs r ns

/-- **C05**, reuse: allocations whose sizes rounded up to 16 fit in the free space
never call `malloc`: the chunk list is unchanged. -/
theorem C05_fitting_allocs_do_not_grow (r : Reg) (c : Chunk) (cs : List Chunk) (ns : List Nat)
    (hn : r.node = c :: cs) (h16 : 16 ∣ r.head)
    (hfit : r.head + (ns.map align).sum ≤ c.fin) :
    ∃ r', allocs r ns = .ok r' ∧ r'.node = r.node ∧ r'.heap = r.heap ∧
      r'.head = r.head + (ns.map align).sum := by
  induction ns generalizing r with
  | nil => exact ⟨r, rfl, rfl, rfl, by simp⟩
  | cons n ns ih =>
    simp only [List.map_cons, List.sum_cons] at hfit ⊢
    have h1 := align_ge n
    have hal : align (r.head + n) = r.head + align n := by
      simp only [align, ALIGN]; omega
    have hle : ¬ r.head + n > c.fin := by omega
    obtain ⟨r', hr', e1, e2, e3⟩ := ih { r with head := align (r.head + n) } hn
      (align_dvd _) (by simp only [hal]; omega)
    refine ⟨r', ?_, e1, e2, ?_⟩
    · simp only [allocs, alloc, hn, hle, if_false, Out.bind_ok]; rw [← hn]; exact hr'
    · rw [e3]; simp only [hal]; omega

example : allocs ⟨64, [⟨64, 80⟩], [⟨64, 80⟩]⟩ [20, 30, 10] =
    .ok ⟨144, [⟨64, 80⟩], [⟨64, 80⟩]⟩ := by decide

/-! ### C06: tmpalloc then alloc -/

/-- **C06**. In any region state with a chunk, an alloc of at most the size of a
preceding tmpalloc returns the same pointer, allocates no chunk (whatever the
oracle would answer), and the whole temporary size was usable. -/
theorem C06_tmpalloc_alloc_same_partial (s : St) (hs : Reach s) (n m a a' : Nat) (hmn : m ≤ n) (r : Reg)
    (p : Nat) (ht : tmpalloc s.reg n a = .ok (r, p)) :
    Owned r p n ∧ ∃ r', alloc r m a' = .ok (r', p) ∧ r'.node = r.node ∧ r'.heap = r.heap := by
  have hI := hs.inv
  rcases tmpalloc_spec hI n a (fun h => h.elim) with h | ⟨r1, p1, h, hIr, _, hp, c, cs, hc, hc1, hc2⟩
  · rw [ht] at h; simp at h
  · rw [ht] at h
    simp only [Out.ok.injEq, Prod.mk.injEq] at h
    obtain ⟨rfl, rfl⟩ := h
    subst hp
    refine ⟨⟨c, hIr.perm.mem_iff.2 (by rw [hc]; simp), hc1, hc2⟩, ?_⟩
    have hle : ¬ r.head + m > c.fin := by omega
    exact ⟨{ r with head := align (r.head + m) }, by simp only [alloc, hc, hle, if_false], rfl, rfl⟩

example : ∃ s r p, Reach s ∧ tmpalloc s.reg 200 4096 = .ok (r, p) ∧ r.node.length = 2 := by
  refine ⟨_, _, _, ⟨64, 1024, [.alloc 20 0], .inl ⟨by decide, by decide⟩, rfl⟩, rfl, by decide⟩

/-! ### C07: tmprealloc -/

/-- C07 is violated in general: on any region whose top chunk is empty, growing
through `aa_mem_region_tmprealloc` reads the chunk that growth just freed (when
the new block is placed elsewhere than the old head). -/
theorem C07_violates_empty_chunk (r : Reg) (c : Chunk) (cs : List Chunk) (m : Nat → Nat) (n a : Nat)
    (hn : r.node = c :: cs) (hperm : r.heap.Perm r.node) (hok : ChunksOk r.node)
    (hempty : r.head = align c.base) (hbig : c.fin < r.head + n)
    (hroom : r.head < c.fin)
    (hfar : c.fin ≤ a ∨ a + HDR + (max (2 * c.size) (n + ALIGN) + ALIGN) ≤ c.base)
    (hfresh : 0 < a ∧ ∀ d ∈ cs,
      (⟨a + HDR, max (2 * c.size) (n + ALIGN) + ALIGN⟩ : Chunk).apart d) :
    tmprealloc r m n a = .ub := by
  obtain ⟨head, node, heap⟩ := r
  dsimp only at *
  subst hn hempty
  obtain ⟨heap', hf, hp'⟩ := nodeFree_perm hperm
  have hrd : ∀ d ∈ cs, ¬ (d.base ≤ align c.base ∧ align c.base + (c.fin - align c.base) ≤ d.fin) := by
    intro d hd
    have hap := (List.pairwise_cons.1 hok.apart).1 d hd
    have p1 := hok.pos c (by simp)
    have p2 := hok.pos d (by simp [hd])
    have := align_ge c.base
    simp only [Chunk.apart, Chunk.fin, HDR, ALIGN] at *
    omega
  have hA : nodeAlloc heap' (max (2 * c.size) (n + ALIGN)) a =
      .ok (⟨a + HDR, max (2 * c.size) (n + ALIGN) + ALIGN⟩,
        ⟨a + HDR, max (2 * c.size) (n + ALIGN) + ALIGN⟩ :: heap') := by
    unfold nodeAlloc
    simp only
    rw [if_pos ⟨hfresh.1, fun d hd => hfresh.2 d (hp'.mem_iff.1 hd)⟩]
  have hge := align_ge c.base
  have hge2 := align_ge (a + HDR)
  have hne : align c.base ≠ align (a + HDR) := by
    rcases hfar with h | h
    · simp only [HDR] at *; omega
    · have h1 := align_lt (a + HDR)
      have h2 : max (2 * c.size) (n + ALIGN) ≥ n + ALIGN := Nat.le_max_right _ _
      simp only [HDR, ALIGN] at *; omega
  simp only [tmprealloc, tmpalloc, grow, hbig, gt_iff_lt, if_true, hf, Out.bind_ok, hA, Out.pure_eq,
    Nat.le_of_lt hroom, ne_eq, hne, not_false_eq_true]
  have hnr : readable (⟨a + HDR, max (2 * c.size) (n + ALIGN) + ALIGN⟩ :: heap')
      (align c.base) (c.fin - align c.base) = false := by
    simp only [readable, List.any_cons, Bool.or_eq_false_iff, decide_eq_false_iff_not,
      List.any_eq_false, decide_eq_true_eq]
    refine ⟨?_, fun d hd => hrd d (hp'.mem_iff.1 hd)⟩
    simp only [Chunk.fin] at *
    rcases hfar with h | h
    · simp only [HDR] at *; omega
    · omega
  simp [memcpy, hnr]

/-- Concrete instance: `aa_mem_region_init(64)` then `tmprealloc(1000)`. -/
example : ∃ r, init 64 1024 = .ok r ∧ tmprealloc r (fun _ => 7) 1000 8192 = .ub :=
  ⟨_, rfl, C07_violates_empty_chunk _ _ _ _ _ _ rfl (by decide)
    ⟨by decide, by decide⟩ (by decide) (by decide) (by decide) (by decide) (by decide)⟩

/-- **C07 (partial)**. If the top chunk already holds something (the head is past
its first aligned byte) and the head is not past the end, tmprealloc has no
undefined behaviour, returns `n` owned bytes, and they start with the bytes that
followed the old head in its chunk.
Missing: empty top chunk (undefined, see `C07_violates_empty_chunk`) and a head
past the end (the old size wraps around). -/
theorem C07_tmprealloc_preserves_partial (s : St) (hs : Reach s) (c : Chunk) (cs : List Chunk)
    (m : Nat → Nat) (n a : Nat) (hn : s.reg.node = c :: cs) (hused : align c.base < s.reg.head)
    (hend : s.reg.head ≤ c.fin) :
    tmprealloc s.reg m n a = .oracle ∨ ∃ r m' p, tmprealloc s.reg m n a = .ok (r, m', p) ∧
      Owned r p n ∧ (∀ i, s.reg.head + i < c.fin → m' (p + i) = m (s.reg.head + i)) ∧
      (∀ b ∈ s.stk, ∀ i, i < b.size → m' (b.addr + i) = m (b.addr + i)) := by
  have hI := hs.inv
  have hI' := hI
  obtain ⟨hperm, hok, halg, hdvd, _, hstk⟩ := hI
  obtain ⟨⟨head, node, heap⟩, stk⟩ := s
  dsimp only at *
  subst hn
  by_cases hfit : c.fin < head + n
  · have hne : align c.base ≠ head := by omega
    rcases nodeAlloc_cases heap (max (2 * c.size) (n + ALIGN)) a with h | ⟨h, h0, hd⟩
    · left
      simp [tmprealloc, tmpalloc, grow, hfit, hne, h]
    · right
      have hge2 := align_ge (a + HDR)
      have hlt2 := align_lt (a + HDR)
      have hap := hd c (hperm.mem_iff.2 (by simp))
      have hpos := hok.pos c (by simp)
      have hge := align_ge c.base
      have hmax1 : max (2 * c.size) (n + ALIGN) ≥ n + ALIGN := Nat.le_max_right _ _
      have hmax2 : max (2 * c.size) (n + ALIGN) ≥ 2 * c.size := Nat.le_max_left _ _
      generalize hM : max (2 * c.size) (n + ALIGN) = M at *
      have hne2 : head ≠ align (a + HDR) := by
        simp only [Chunk.apart, Chunk.fin, HDR, ALIGN] at *
        omega
      have hr1 : readable (⟨a + HDR, M + ALIGN⟩ :: heap) (align (a + HDR)) (c.fin - head) = true := by
        simp only [readable, List.any_cons, Bool.or_eq_true, decide_eq_true_eq]
        left
        simp only [Chunk.fin, HDR, ALIGN] at *
        omega
      have hr2 : readable (⟨a + HDR, M + ALIGN⟩ :: heap) head (c.fin - head) = true := by
        simp only [readable, List.any_cons, Bool.or_eq_true, decide_eq_true_eq, List.any_eq_true]
        right
        refine ⟨c, hperm.mem_iff.2 (by simp), ?_⟩
        omega
      have hdis : align (a + HDR) + (c.fin - head) ≤ head ∨
          head + (c.fin - head) ≤ align (a + HDR) := by
        simp only [Chunk.apart, Chunk.fin, HDR, ALIGN] at *
        omega
      refine ⟨⟨align (a + HDR), ⟨a + HDR, M + ALIGN⟩ :: c :: cs, ⟨a + HDR, M + ALIGN⟩ :: heap⟩,
        fun x => if align (a + HDR) ≤ x ∧ x < align (a + HDR) + (c.fin - head) then
          m (head + (x - align (a + HDR))) else m x, align (a + HDR), ?_, ?_, ?_, ?_⟩
      · simp only [tmprealloc, tmpalloc, grow, gt_iff_lt, hfit, if_true, hne, if_false, hM, h,
          Out.bind_ok, Out.pure_eq, hend, ne_eq, hne2, not_false_eq_true, memcpy, hr1, hr2, hdis,
          and_self]
      · refine ⟨_, List.mem_cons_self, ?_, ?_⟩
        · exact hge2
        · simp only [HDR, ALIGN] at *; omega
      · intro i hi
        dsimp only
        rw [if_pos (by omega)]
        congr 1; omega
      · intro b hb i hi
        obtain ⟨e, he, h1, h2, _⟩ := hstk.mem hb
        have hape := hd e (hperm.mem_iff.2 he)
        have hpose := hok.pos e he
        have hgee := align_ge e.base
        dsimp only
        rw [if_neg]
        simp only [Chunk.apart, Chunk.fin, HDR, ALIGN] at *
        omega
  · right
    refine ⟨⟨head, c :: cs, heap⟩, m, head, ?_, ?_, fun _ _ => rfl, fun _ _ _ _ => rfl⟩
    · simp only [tmprealloc, tmpalloc, gt_iff_lt, hfit, if_false, Out.bind_ok, ne_eq, not_true_eq_false,
        Out.pure_eq]
    · have hge := align_ge c.base
      refine ⟨c, hperm.mem_iff.2 (by simp), by omega, ?_⟩
      simp only [Chunk.fin] at *; omega

example : ∃ s c cs r m p, Reach s ∧ s.reg.node = c :: cs ∧ align c.base < s.reg.head ∧
    s.reg.head ≤ c.fin ∧ tmprealloc s.reg (fun x => x) 1000 8192 = .ok (r, m, p) := by
  refine ⟨_, _, _, _, _, _, ⟨64, 1024, [.alloc 20 0], .inl ⟨by decide, by decide⟩, rfl⟩, rfl,
    by decide, by decide, rfl⟩

end Verif.Region
