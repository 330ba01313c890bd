import Verif.Model.Region

namespace Verif.Region

@[simp] theorem Out.bind_ok {α β : Type} (a : α) (f : α → Out β) :
    (Out.ok a >>= f) = f a := rfl
@[simp] theorem Out.bind_ub {α β : Type} (f : α → Out β) :
    (Out.ub >>= f) = Out.ub := rfl
@[simp] theorem Out.bind_oracle {α β : Type} (f : α → Out β) :
    (Out.oracle >>= f) = Out.oracle := rfl
@[simp] theorem Out.pure_eq {α : Type} (a : α) : (pure a : Out α) = Out.ok a := rfl

theorem align_ge (p : Nat) : p ≤ align p := by simp only [align, ALIGN]; omega
theorem align_lt (p : Nat) : align p < p + 16 := by simp only [align, ALIGN]; omega
theorem align_dvd (p : Nat) : 16 ∣ align p := by simp only [align, ALIGN]; omega
theorem align_of_dvd {p : Nat} (h : 16 ∣ p) : align p = p := by
  simp only [align, ALIGN]; omega
theorem align_le_of_dvd {p q : Nat} (h : 16 ∣ q) (hpq : p ≤ q) : align p ≤ q := by
  simp only [align, ALIGN]; omega

/-- Chunks are pairwise apart, not at address zero, and nonempty. -/
structure ChunksOk (cs : List Chunk) : Prop where
  apart : cs.Pairwise Chunk.apart
  pos : ∀ c ∈ cs, HDR < c.base ∧ ALIGN ≤ c.size

/-- The client stack is laid out in the chunks: newest entries in the top chunk
below `h`, older entries lower in the same chunk or in older chunks. -/
inductive Stk : List Chunk → Nat → List Blk → Prop where
  | nil (cs h) : Stk cs h []
  | blk (c cs h b bs) :
      align c.base ≤ b.addr → 16 ∣ b.addr → b.addr + b.size ≤ h →
      b.addr + b.size ≤ c.fin →
      (0 < b.size ∨ (align c.base < b.addr ∧ b.addr < c.fin)) →
      Stk (c :: cs) b.addr bs → Stk (c :: cs) h (b :: bs)
  | next (c cs h h' bs) : Stk cs h' bs → Stk (c :: cs) h bs

theorem Stk.mono {cs h h' bs} (hs : Stk cs h bs) (hh : h ≤ h') : Stk cs h' bs := by
  cases hs with
  | nil => exact .nil _ _
  | blk c cs _ b bs h1 h2 h3 h4 h5 h6 => exact .blk _ _ _ _ _ h1 h2 (by omega) h4 h5 h6
  | next c cs _ h'' bs h1 => exact .next _ _ _ h'' _ h1

/-- An empty top chunk carries no entry. -/
theorem Stk.drop_empty {c cs bs} (hs : Stk (c :: cs) (align c.base) bs) : ∃ h', Stk cs h' bs := by
  cases hs with
  | nil => exact ⟨0, .nil _ _⟩
  | blk _ _ _ b bs h1 h2 h3 h4 h5 h6 => omega
  | next _ _ _ h'' bs h1 => exact ⟨_, h1⟩

/-- The region invariant.  `al` says whether all chunks are 16-byte aligned. -/
structure Inv (al : Prop) (s : St) : Prop where
  perm : s.reg.heap.Perm s.reg.node
  ok : ChunksOk s.reg.node
  alg : al → ∀ c ∈ s.reg.node, 16 ∣ c.base
  hdvd : 16 ∣ s.reg.head
  top : ∃ c cs, s.reg.node = c :: cs ∧ align c.base ≤ s.reg.head
  stk : Stk s.reg.node s.reg.head s.stk

theorem ChunksOk.tail {c cs} (h : ChunksOk (c :: cs)) : ChunksOk cs :=
  ⟨(List.pairwise_cons.1 h.apart).2, fun d hd => h.pos d (List.mem_cons_of_mem _ hd)⟩

theorem nodeFree_perm {heap c cs} (h : heap.Perm (c :: cs)) :
    ∃ heap', nodeFree heap c = .ok heap' ∧ heap'.Perm cs := by
  refine ⟨heap.erase c, ?_, ?_⟩
  · simp [nodeFree, h.mem_iff]
  · simpa using h.erase c

theorem nodeAlloc_ok {heap n a c heap'} (h : nodeAlloc heap n a = .ok (c, heap')) :
    c = ⟨a + HDR, n + ALIGN⟩ ∧ heap' = c :: heap ∧ 0 < a ∧ ∀ d ∈ heap, c.apart d := by
  unfold nodeAlloc at h
  simp only at h
  split at h
  · rename_i hc
    simp only [Out.ok.injEq, Prod.mk.injEq] at h
    obtain ⟨h1, h2⟩ := h
    subst h1; subst h2
    exact ⟨rfl, rfl, hc.1, hc.2⟩
  · exact absurd h (by simp)

theorem nodeAlloc_not_ub {heap n a} : nodeAlloc heap n a ≠ .ub := by
  unfold nodeAlloc; simp only; split <;> simp

theorem nodeAlloc_cases (heap : List Chunk) (n a : Nat) :
    nodeAlloc heap n a = .oracle ∨
      (nodeAlloc heap n a = .ok (⟨a + HDR, n + ALIGN⟩, ⟨a + HDR, n + ALIGN⟩ :: heap) ∧
        0 < a ∧ ∀ d ∈ heap, (⟨a + HDR, n + ALIGN⟩ : Chunk).apart d) := by
  unfold nodeAlloc
  simp only
  split
  · rename_i h; exact .inr ⟨rfl, h⟩
  · exact .inl rfl

/-- Adding a fresh chunk on top keeps everything. -/
theorem ChunksOk.cons {cs heap : List Chunk} {n a : Nat} (h : ChunksOk cs) (hp : heap.Perm cs)
    (ha : 0 < a) (hd : ∀ d ∈ heap, (⟨a + HDR, n + ALIGN⟩ : Chunk).apart d) :
    ChunksOk (⟨a + HDR, n + ALIGN⟩ :: cs) := by
  refine ⟨List.pairwise_cons.2 ⟨fun d hd' => hd d (hp.mem_iff.2 hd'), h.apart⟩, ?_⟩
  intro c hc
  rcases List.mem_cons.1 hc with rfl | hc
  · exact ⟨by show HDR < a + HDR; omega, by show ALIGN ≤ n + ALIGN; omega⟩
  · exact h.pos c hc

theorem grow_spec {al : Prop} {s : St} (hI : Inv al s) (size a : Nat) (ha : al → 16 ∣ a) :
    grow s.reg size a = .oracle ∨
    ∃ r, grow s.reg size a = .ok r ∧ Inv al ⟨r, s.stk⟩ ∧
      ∃ c cs, r.node = c :: cs ∧ r.head = align c.base ∧ r.head + size ≤ c.fin ∧
        r.head < c.fin := by
  obtain ⟨hperm, hok, halg, hdvd, ⟨c, cs, hn, htop⟩, hstk⟩ := hI
  obtain ⟨⟨head, node, heap⟩, stk⟩ := s
  dsimp only at hperm hok halg hdvd hn htop hstk ⊢
  subst hn
  have hb : ∀ n, size + ALIGN ≤ n →
      align (a + HDR) + size ≤ (⟨a + HDR, n + ALIGN⟩ : Chunk).fin ∧
      align (a + HDR) < (⟨a + HDR, n + ALIGN⟩ : Chunk).fin := by
    intro n h
    have := align_lt (a + HDR)
    simp only [Chunk.fin, ALIGN] at *
    omega
  have hadd : al → 16 ∣ a + HDR := fun h => by have := ha h; simp only [HDR]; omega
  unfold grow
  simp only
  have hns : size + ALIGN ≤ max (2 * c.size) (size + ALIGN) := Nat.le_max_right _ _
  by_cases hc : align c.base = head
  · simp only [hc, if_true]
    obtain ⟨heap', hf, hp'⟩ := nodeFree_perm hperm
    simp only [hf, Out.bind_ok]
    rcases nodeAlloc_cases heap' (max (2 * c.size) (size + ALIGN)) a with h | ⟨h, h0, hd⟩
    · left; simp [h]
    · right
      simp only [h, Out.bind_ok, Out.pure_eq, Out.ok.injEq]
      refine ⟨_, rfl, ⟨?_, ?_, ?_, align_dvd _, ⟨_, _, rfl, Nat.le_refl _⟩, ?_⟩,
        ⟨_, _, rfl, rfl, (hb _ hns).1, (hb _ hns).2⟩⟩
      · exact hp'.cons _
      · exact hok.tail.cons hp' h0 hd
      · intro hal d hd'
        rcases List.mem_cons.1 hd' with rfl | hd'
        · exact hadd hal
        · exact halg hal d (List.mem_cons_of_mem _ hd')
      · rw [← hc] at hstk
        obtain ⟨h', hs'⟩ := hstk.drop_empty
        exact .next _ _ _ _ _ hs'
  · simp only [hc, if_false]
    rcases nodeAlloc_cases heap (max (2 * c.size) (size + ALIGN)) a with h | ⟨h, h0, hd⟩
    · left; simp [h]
    · right
      simp only [h, Out.bind_ok, Out.pure_eq, Out.ok.injEq]
      refine ⟨_, rfl, ⟨?_, ?_, ?_, align_dvd _, ⟨_, _, rfl, Nat.le_refl _⟩, ?_⟩,
        ⟨_, _, rfl, rfl, (hb _ hns).1, (hb _ hns).2⟩⟩
      · exact hperm.cons _
      · exact hok.cons hperm h0 hd
      · intro hal d hd'
        rcases List.mem_cons.1 hd' with rfl | hd'
        · exact hadd hal
        · exact halg hal d hd'
      · exact .next _ _ _ _ _ hstk

/-- Bumping the head of a region that has room. -/
theorem bump_inv {al : Prop} {r : Reg} {stk : List Blk} (hI : Inv al ⟨r, stk⟩) {c cs size}
    (hn : r.node = c :: cs) (hfit : r.head + size ≤ c.fin) :
    Inv al ⟨{ r with head := align (r.head + size) },
      keep { r with head := align (r.head + size) } ⟨r.head, size⟩ stk⟩ := by
  obtain ⟨hperm, hok, halg, hdvd, ⟨c', cs', hn', htop⟩, hstk⟩ := hI
  obtain ⟨head, node, heap⟩ := r
  dsimp only at hn hn' hperm hok halg hdvd htop hstk hfit ⊢
  subst hn
  obtain ⟨rfl, rfl⟩ := List.cons.inj hn'
  have hge := align_ge (head + size)
  refine ⟨hperm, hok, halg, align_dvd _, ⟨c, cs, rfl, by dsimp only; omega⟩, ?_⟩
  simp only [keep]
  split
  · rename_i hk
    simp only [interior, decide_eq_true_eq] at hk ⊢
    exact .blk _ _ _ _ _ htop hdvd hge hfit hk hstk
  · exact hstk.mono (by omega)

theorem alloc_spec {al : Prop} {s : St} (hI : Inv al s) (size a : Nat) (ha : al → 16 ∣ a) :
    alloc s.reg size a = .oracle ∨
    ∃ r p, alloc s.reg size a = .ok (r, p) ∧ Inv al ⟨r, keep r ⟨p, size⟩ s.stk⟩ ∧ 16 ∣ p ∧
      ∃ c cs, r.node = c :: cs ∧ c.base ≤ p ∧ p + size ≤ c.fin := by
  have hI' := hI
  obtain ⟨hperm, hok, halg, hdvd, ⟨c, cs, hn, htop⟩, hstk⟩ := hI
  obtain ⟨⟨head, node, heap⟩, stk⟩ := s
  dsimp only at hperm hok halg hdvd hn htop hstk ⊢
  subst hn
  unfold alloc
  simp only
  split
  · rcases grow_spec hI' size a ha with h | ⟨r, h, hIr, c', cs', hn', hh', hf', _⟩
    · left; simp [h]
    · right
      simp only [h, Out.bind_ok, Out.pure_eq]
      refine ⟨_, _, rfl, bump_inv hIr hn' hf', hIr.hdvd, c', cs', hn', ?_, hf'⟩
      rw [hh']; exact align_ge _
  · right
    rename_i hle
    refine ⟨_, _, rfl, bump_inv hI' rfl (by dsimp only; omega), hdvd, c, cs, rfl, ?_, by omega⟩
    have := align_ge c.base
    omega

theorem tmpalloc_spec {al : Prop} {s : St} (hI : Inv al s) (size a : Nat) (ha : al → 16 ∣ a) :
    tmpalloc s.reg size a = .oracle ∨
    ∃ r p, tmpalloc s.reg size a = .ok (r, p) ∧ Inv al ⟨r, s.stk⟩ ∧ 16 ∣ p ∧ p = r.head ∧
      ∃ c cs, r.node = c :: cs ∧ c.base ≤ p ∧ p + size ≤ c.fin := by
  have hI' := hI
  obtain ⟨hperm, hok, halg, hdvd, ⟨c, cs, hn, htop⟩, hstk⟩ := hI
  obtain ⟨⟨head, node, heap⟩, stk⟩ := s
  dsimp only at hperm hok halg hdvd hn htop hstk ⊢
  subst hn
  unfold tmpalloc
  simp only
  split
  · rcases grow_spec hI' size a ha with h | ⟨r, h, hIr, c', cs', hn', hh', hf', _⟩
    · left; simp [h]
    · right
      simp only [h, Out.bind_ok, Out.pure_eq]
      refine ⟨_, _, rfl, hIr, hIr.hdvd, rfl, c', cs', hn', ?_, hf'⟩
      rw [hh']; exact align_ge _
  · right
    rename_i hle
    refine ⟨_, _, rfl, hI', hdvd, rfl, c, cs, rfl, ?_, by omega⟩
    have := align_ge c.base
    omega

/-- A remembered entry lies in some chunk of the chain. -/
theorem Stk.mem {cs h bs b} (hs : Stk cs h bs) (hb : b ∈ bs) :
    ∃ c ∈ cs, align c.base ≤ b.addr ∧ b.addr + b.size ≤ c.fin ∧ b.addr < c.fin ∧ 16 ∣ b.addr := by
  induction hs with
  | nil => simp at hb
  | blk c cs h b' bs h1 h2 h3 h4 h5 h6 ih =>
    rcases List.mem_cons.1 hb with rfl | hb
    · exact ⟨c, by simp, h1, h4, by omega, h2⟩
    · exact ih hb
  | next c cs h h' bs _ ih =>
    obtain ⟨d, hd, h⟩ := ih hb
    exact ⟨d, List.mem_cons_of_mem _ hd, h⟩

/-- Cutting the stack just below an entry: that entry's chunk is on top. -/
theorem Stk.cut {cs h bs k b bs'} (hs : Stk cs h bs) (hk : bs.drop k = b :: bs') :
    ∃ pre c post, cs = pre ++ c :: post ∧ align c.base ≤ b.addr ∧ b.addr < c.fin ∧
      16 ∣ b.addr ∧ Stk (c :: post) b.addr bs' := by
  induction hs generalizing k with
  | nil => simp at hk
  | blk c cs h b0 bs h1 h2 h3 h4 h5 h6 ih =>
    cases k with
    | zero =>
      simp only [List.drop_zero, List.cons.injEq] at hk
      obtain ⟨rfl, rfl⟩ := hk
      exact ⟨[], c, cs, rfl, h1, by omega, h2, h6⟩
    | succ k =>
      simp only [List.drop_succ_cons] at hk
      exact ih hk
  | next c cs h h' bs _ ih =>
    obtain ⟨pre, d, post, rfl, h⟩ := ih hk
    exact ⟨c :: pre, d, post, rfl, h⟩

/-- A point of one chunk is in no other chunk. -/
theorem apart_not_in {c d : Chunk} (h : c.apart d) (hc : HDR < c.base) (hd : HDR < d.base) {p : Nat}
    (hp : d.base ≤ p ∧ p < d.fin) : inNode p c = false := by
  simp only [inNode, decide_eq_false_iff_not]
  simp only [Chunk.apart, Chunk.fin, HDR] at *
  omega

theorem popLoop_spec {heap pre c post n ptr}
    (hp : heap.Perm (pre ++ c :: post)) (hpre : ∀ d ∈ pre, inNode ptr d = false)
    (hin : inNode ptr c = true) :
    ∃ n' heap', popLoop heap ptr n (pre ++ c :: post) = .ok (n', c :: post, heap') ∧
      heap'.Perm (c :: post) := by
  induction pre generalizing heap n with
  | nil =>
    refine ⟨n, heap, ?_, hp⟩
    simp [popLoop, hin]
  | cons d pre ih =>
    obtain ⟨heap', hf, hp'⟩ := nodeFree_perm hp
    obtain ⟨n', heap'', h1, h2⟩ := ih (n := n + d.size) hp'
      (fun e he => hpre e (List.mem_cons_of_mem _ he))
    refine ⟨n', heap'', ?_, h2⟩
    simp [popLoop, hpre d (by simp), hf, h1]

theorem pop_spec {al : Prop} {s : St} (hI : Inv al s) {k b bs} (hk : s.stk.drop k = b :: bs)
    (a : Nat) (ha : al → 16 ∣ a) :
    pop s.reg b.addr a = .oracle ∨
    ∃ r, pop s.reg b.addr a = .ok r ∧ Inv al ⟨r, bs⟩ := by
  obtain ⟨hperm, hok, halg, hdvd, ⟨c, cs, hn, htop⟩, hstk⟩ := hI
  obtain ⟨⟨head, node, heap⟩, stk⟩ := s
  dsimp only at hperm hok halg hdvd hn htop hstk ⊢
  subst hn
  have hadd : al → 16 ∣ a + HDR := fun h => by have := ha h; simp only [HDR]; omega
  obtain ⟨pre, q, post, hsplit, hq1, hq2, hq3, hq4⟩ := hstk.cut hk
  have hqin : inNode b.addr q = true := by
    have := align_ge q.base
    simp only [inNode, decide_eq_true_eq]
    omega
  unfold pop
  cases pre with
  | nil =>
    simp only [List.nil_append, List.cons.injEq] at hsplit
    obtain ⟨rfl, rfl⟩ := hsplit
    simp only [hqin, if_true]
    right
    refine ⟨_, rfl, ⟨hperm, hok, halg, align_dvd _, ⟨c, cs, rfl, ?_⟩, ?_⟩⟩
    · simp only [align_of_dvd hq3]; exact hq1
    · simp only [align_of_dvd hq3]; exact hq4
  | cons d pre =>
    have hnot : ∀ e ∈ d :: pre, inNode b.addr e = false := by
      intro e he
      have hap : e.apart q := by
        have := hok.apart
        rw [hsplit] at this
        exact (List.pairwise_append.1 this).2.2 e he q (by simp)
      have hmem : ∀ x ∈ d :: pre ++ q :: post, HDR < x.base := by
        intro x hx; rw [← hsplit] at hx; exact (hok.pos x hx).1
      have := align_ge q.base
      refine apart_not_in hap (hmem e ?_) (hmem q ?_) ⟨by omega, hq2⟩
      · exact List.mem_append_left _ he
      · simp
    rw [hsplit] at hperm hok halg ⊢
    simp only [List.cons_append, hnot d (by simp), Bool.false_eq_true, if_false]
    obtain ⟨heap1, hf1, hp1⟩ := nodeFree_perm hperm
    obtain ⟨n2, heap2, hl2, hp2⟩ := popLoop_spec (n := d.size) hp1
      (fun e he => hnot e (List.mem_cons_of_mem _ he)) hqin
    simp only [hf1, Out.bind_ok, hl2]
    have hok' : ChunksOk (q :: post) := by
      refine ⟨((List.pairwise_append.1 hok.apart).2.1), fun e he => hok.pos e ?_⟩
      exact List.mem_append_right _ he
    by_cases hal : align q.base = b.addr
    · simp only [hal, if_true]
      obtain ⟨heap3, hf3, hp3⟩ := nodeFree_perm hp2
      simp only [hf3, Out.bind_ok]
      rcases nodeAlloc_cases heap3 (n2 + (q.fin - b.addr)) a with h | ⟨h, h0, hd⟩
      · left; simp [h]
      · right
        simp only [h, Out.bind_ok, Out.pure_eq, Out.ok.injEq]
        refine ⟨_, rfl, ⟨hp3.cons _, hok'.tail.cons hp3 h0 hd, ?_, align_dvd _,
          ⟨_, _, rfl, Nat.le_refl _⟩, ?_⟩⟩
        · intro hh e he
          rcases List.mem_cons.1 he with rfl | he
          · exact hadd hh
          · exact halg hh e (by simp [he])
        · rw [← hal] at hq4
          obtain ⟨h', hs'⟩ := hq4.drop_empty
          exact .next _ _ _ _ _ hs'
    · simp only [hal, if_false]
      rcases nodeAlloc_cases heap2 (n2 + (q.fin - b.addr)) a with h | ⟨h, h0, hd⟩
      · left; simp [h]
      · right
        simp only [h, Out.bind_ok, Out.pure_eq, Out.ok.injEq]
        refine ⟨_, rfl, ⟨hp2.cons _, hok'.cons hp2 h0 hd, ?_, align_dvd _,
          ⟨_, _, rfl, Nat.le_refl _⟩, ?_⟩⟩
        · intro hh e he
          rcases List.mem_cons.1 he with rfl | he
          · exact hadd hh
          · exact halg hh e (List.mem_append_right _ he)
        · exact .next _ _ _ _ _ hq4

theorem freeAll_spec {heap cs} (hp : heap.Perm cs) : freeAll heap cs = .ok [] := by
  induction cs generalizing heap with
  | nil => simp [freeAll, hp.eq_nil]
  | cons c cs ih =>
    obtain ⟨heap', hf, hp'⟩ := nodeFree_perm hp
    simp [freeAll, hf, ih hp']

theorem release_spec {al : Prop} {s : St} (hI : Inv al s) (hal : al) (a : Nat) (ha : al → 16 ∣ a) :
    release s.reg a = .oracle ∨
    ∃ r, release s.reg a = .ok r ∧ Inv al ⟨r, []⟩ ∧
      ∃ c, r.node = [c] ∧ r.head = c.base ∧ total s.reg.node ≤ c.size := by
  obtain ⟨hperm, hok, halg, hdvd, ⟨c, cs, hn, htop⟩, hstk⟩ := hI
  obtain ⟨⟨head, node, heap⟩, stk⟩ := s
  dsimp only at hperm hok halg hdvd hn htop hstk ⊢
  subst hn
  have hadd : 16 ∣ a + HDR := by have := ha hal; simp only [HDR]; omega
  unfold release
  cases cs with
  | nil =>
    right
    have hc := halg hal c (by simp)
    refine ⟨_, rfl, ⟨hperm, hok, halg, hc, ⟨c, [], rfl, ?_⟩, .nil _ _⟩, c, rfl, rfl, ?_⟩
    · simp [align_of_dvd hc]
    · simp [total]
  | cons d cs =>
    simp only [freeAll_spec hperm, Out.bind_ok]
    rcases nodeAlloc_cases [] (total (c :: d :: cs)) a with h | ⟨h, h0, hd⟩
    · left; simp [h]
    · right
      simp only [h, Out.bind_ok, Out.pure_eq, Out.ok.injEq]
      refine ⟨_, rfl, ⟨List.Perm.refl _, ?_, ?_, hadd, ⟨_, _, rfl, ?_⟩, .nil _ _⟩, _, rfl, rfl, ?_⟩
      · exact ChunksOk.cons (cs := []) ⟨List.Pairwise.nil, by simp⟩ (List.Perm.refl _) h0 hd
      · intro _ e he; simp only [List.mem_singleton] at he; subst he; exact hadd
      · simp [align_of_dvd hadd]
      · simp only [ALIGN]; omega

theorem init_spec {al : Prop} (size a : Nat) (ha : al → 16 ∣ a) :
    init size a = .oracle ∨ ∃ r, init size a = .ok r ∧ Inv al ⟨r, []⟩ := by
  unfold init
  rcases nodeAlloc_cases [] size a with h | ⟨h, h0, hd⟩
  · left; simp [h]
  · right
    simp only [h, Out.bind_ok, Out.pure_eq, Out.ok.injEq]
    refine ⟨_, rfl, ⟨List.Perm.refl _, ?_, ?_, align_dvd _, ⟨_, _, rfl, Nat.le_refl _⟩, .nil _ _⟩⟩
    · exact ChunksOk.cons (cs := []) ⟨List.Pairwise.nil, by simp⟩ (List.Perm.refl _) h0 hd
    · intro hal e he; simp only [List.mem_singleton] at he; subst he
      have := ha hal; simp only [HDR]; omega

theorem mark_spec {al : Prop} {s : St} (hI : Inv al s) :
    Inv al ⟨s.reg, keep s.reg ⟨s.reg.head, 0⟩ s.stk⟩ := by
  have hI' := hI
  obtain ⟨hperm, hok, halg, hdvd, ⟨c, cs, hn, htop⟩, hstk⟩ := hI
  obtain ⟨⟨head, node, heap⟩, stk⟩ := s
  dsimp only at hperm hok halg hdvd hn htop hstk ⊢
  subst hn
  refine ⟨hperm, hok, halg, hdvd, ⟨c, cs, rfl, htop⟩, ?_⟩
  simp only [keep]
  split
  · rename_i hk
    simp only [interior, decide_eq_true_eq] at hk ⊢
    exact .blk _ _ _ _ _ htop hdvd (by simp) (by dsimp only; omega) hk hstk
  · exact hstk

/-- Histories the theorems speak about: either every address returned by `malloc`
is 16-byte aligned, or there is no `release`. -/
def OpOk (al : Prop) (op : Op) : Prop := (al → 16 ∣ op.addr) ∧ (op.isRelease = true → al)

theorem step_spec {al : Prop} {s : St} (hI : Inv al s) (op : Op) (hop : OpOk al op) :
    step s op = .oracle ∨ ∃ s', step s op = .ok s' ∧ Inv al s' := by
  obtain ⟨ha, hrel⟩ := hop
  cases op with
  | alloc size a =>
    rcases alloc_spec hI size a ha with h | ⟨r, p, h, hI', _⟩
    · left; simp [step, h]
    · right; exact ⟨_, by simp only [step, h, Out.bind_ok, Out.pure_eq], hI'⟩
  | tmpalloc size a =>
    rcases tmpalloc_spec hI size a ha with h | ⟨r, p, h, hI', _⟩
    · left; simp [step, h]
    · right; exact ⟨_, by simp only [step, h, Out.bind_ok, Out.pure_eq], hI'⟩
  | mark => right; exact ⟨_, rfl, mark_spec hI⟩
  | pop k a =>
    unfold step
    cases hk : s.stk.drop k with
    | nil => right; exact ⟨s, by simp [hk], hI⟩
    | cons b bs =>
      rcases pop_spec hI hk a ha with h | ⟨r, h, hI'⟩
      · left; simp [hk, h]
      · right; exact ⟨_, by simp only [hk, h, Out.bind_ok, Out.pure_eq], hI'⟩
  | release a =>
    rcases release_spec hI (hrel rfl) a ha with h | ⟨r, h, hI', _⟩
    · left; simp [step, h]
    · right; exact ⟨_, by simp only [step, h, Out.bind_ok, Out.pure_eq], hI'⟩

theorem run_spec {al : Prop} {s : St} (hI : Inv al s) (ops : List Op)
    (hops : ∀ op ∈ ops, OpOk al op) :
    run s ops = .oracle ∨ ∃ s', run s ops = .ok s' ∧ Inv al s' := by
  induction ops generalizing s with
  | nil => right; exact ⟨s, rfl, hI⟩
  | cons op ops ih =>
    rcases step_spec hI op (hops op (by simp)) with h | ⟨s', h, hI'⟩
    · left; simp [run, h]
    · rcases ih hI' (fun o ho => hops o (List.mem_cons_of_mem _ ho)) with h2 | ⟨s'', h2, hI''⟩
      · left; simp [run, h, h2]
      · right; exact ⟨s'', by simp [run, h, h2], hI''⟩

theorem start_spec {al : Prop} (size a : Nat) (ha : al → 16 ∣ a) (ops : List Op)
    (hops : ∀ op ∈ ops, OpOk al op) :
    start size a ops = .oracle ∨ ∃ s', start size a ops = .ok s' ∧ Inv al s' := by
  rcases init_spec (al := al) size a ha with h | ⟨r, h, hI⟩
  · left; simp [start, h]
  · rcases run_spec hI ops hops with h2 | ⟨s', h2, hI'⟩
    · left; simp [start, h, h2]
    · right; exact ⟨s', by simp [start, h, h2], hI'⟩

end Verif.Region
