import Verif.Model.Io
import Verif.Prop.Region

/-!
# C77: reading lines into a region

Specification: a NUL terminated string in the memory.
-/

namespace Verif.Io

open Verif.Region

/-- The C string `s` is stored at `p`. -/
def IsStr (m : Nat → Nat) (p : Nat) (s : List Nat) : Prop :=
  (∀ i (h : i < s.length), m (p + i) = s[i]) ∧ m (p + s.length) = 0

/-- The memory with the characters `w` written from `p` on. -/
def wr (m : Nat → Nat) (p : Nat) (w : List Nat) : Nat → Nat :=
  fun x => if p ≤ x ∧ x < p + w.length then w.getD (x - p) 0 else m x

theorem wr_nil (m p) : wr m p [] = m := by
  funext x; unfold wr; rw [if_neg]; simp

theorem wr_cons (m : Nat → Nat) (p c : Nat) (w : List Nat) :
    wr (fun x => if x = p then c else m x) (p + 1) w = wr m p (c :: w) := by
  funext x
  unfold wr
  simp only [List.length_cons]
  by_cases h1 : x = p
  · subst h1
    rw [if_neg (by omega), if_pos rfl, if_pos (by omega)]; simp
  · by_cases h2 : p + 1 ≤ x ∧ x < p + 1 + w.length
    · rw [if_pos h2, if_pos (by omega)]
      have : x - p = (x - (p + 1)) + 1 := by omega
      rw [this]; simp
    · rw [if_neg h2, if_neg h1, if_neg (by omega)]

theorem wr_at (m p) (w : List Nat) (i : Nat) (h : i < w.length) : wr m p w (p + i) = w[i] := by
  unfold wr
  rw [if_pos (by omega)]
  simp [h]

theorem wr_out (m p) (w : List Nat) (x : Nat) (h : x < p ∨ p + w.length ≤ x) : wr m p w x = m x := by
  unfold wr
  rw [if_neg (by omega)]

/-- Writing is defined inside of the top chunk. -/
theorem store_ok {r : Reg} {c : Chunk} (hc : c ∈ r.heap) (m : Nat → Nat) (p v : Nat)
    (h1 : c.base ≤ p) (h2 : p < c.fin) : store r m p v = .ok fun x => if x = p then v else m x := by
  unfold store
  rw [if_pos]
  simp only [readable, List.any_eq_true, decide_eq_true_eq]
  exact ⟨c, hc, h1, by omega⟩

/-- Characters that fit in the top chunk are written one after the other. -/
theorem getLoop_prefix {r : Reg} {c : Chunk} {cs : List Chunk} (hn : r.node = c :: cs) (hc : c ∈ r.heap)
    (hb : c.base ≤ r.head) (as : Nat → Nat) (rest : List Nat) :
    ∀ (w : List Nat) (m : Nat → Nat) (n : Nat), 10 ∉ w → r.head + n + w.length ≤ c.fin →
      getLoop r m n as (w ++ rest) = getLoop r (wr m (r.head + n) w) (n + w.length) as rest := by
  intro w
  induction w with
  | nil => intro m n _ _; simp [wr_nil]
  | cons i w ih =>
    intro m n h10 hfit
    simp only [List.length_cons] at hfit
    have hi : i ≠ 10 := by rintro rfl; simp at h10
    have hw : 10 ∉ w := fun h => h10 (List.mem_cons_of_mem _ h)
    have ht : tmprealloc r m (n + 1) (as n) = .ok (r, m, r.head) := by
      simp only [tmprealloc, tmpalloc, hn]
      rw [if_neg (by omega)]
      simp
    simp only [List.cons_append, getLoop]
    rw [if_neg hi, ht]
    simp only [Out.bind_ok]
    rw [store_ok hc m (r.head + n) i (by omega) (by omega)]
    simp only [Out.bind_ok]
    rw [ih _ (n + 1) hw (by omega), show r.head + (n + 1) = r.head + n + 1 from rfl, wr_cons,
      List.length_cons, show n + 1 + w.length = n + (w.length + 1) by omega]

/-- How a line may end: the file ends, or a newline follows. -/
inductive Ends : List Nat → List Nat → Prop where
  | eof : Ends [] []
  | nl (tl) : Ends (10 :: tl) tl

/-- The end of a line that fits in the top chunk. -/
theorem getLoop_end {r : Reg} {c : Chunk} {cs : List Chunk} (hn : r.node = c :: cs) (hc : c ∈ r.heap)
    (hb : c.base ≤ r.head) (as : Nat → Nat) {inp tl : List Nat} (he : Ends inp tl) (m : Nat → Nat)
    (n : Nat) (hfit : r.head + n + 1 ≤ c.fin) :
    getLoop r m n as inp = .ok ({ r with head := align (r.head + (n + 1)) },
      fun x => if x = r.head + n then 0 else m x, r.head, tl) := by
  have ha : alloc r (n + 1) (as n) = .ok ({ r with head := align (r.head + (n + 1)) }, r.head) := by
    simp only [alloc, hn]
    rw [if_neg (by omega)]
  have hs := store_ok (r := { r with head := align (r.head + (n + 1)) }) hc m (r.head + n) 0
    (by omega) (by omega)
  cases he with
  | eof => simp only [getLoop, ha, Out.bind_ok, hs]; rfl
  | nl tl => simp only [getLoop, if_true, ha, Out.bind_ok, hs]; rfl

/-- Reading `line` succeeded: it is a string in memory owned by the region, below the head, disjoint from
all live blocks, which keep their contents, and the input is consumed including the newline. The
alternative is an impossible answer of `malloc`. -/
def Reads (s : St) (m : Nat → Nat) (line tl : List Nat) (o : Out (Reg × (Nat → Nat) × Nat × List Nat)) :
    Prop :=
  o = .oracle ∨ ∃ r m' p, o = .ok (r, m', p, tl) ∧ IsStr m' p line ∧
    Owned r p (line.length + 1) ∧ p + line.length + 1 ≤ r.head ∧
    (∀ b ∈ s.stk, Disj b ⟨p, line.length + 1⟩ ∧ ∀ i < b.size, m' (b.addr + i) = m (b.addr + i))

theorem disj_head {s : St} (hI : Inv False s) {c cs} (hn : s.reg.node = c :: cs) {n : Nat} (h0 : 0 < n)
    (hfit : s.reg.head + n ≤ c.fin) : ∀ b ∈ s.stk, Disj b ⟨s.reg.head, n⟩ := by
  have h := bump_inv (r := s.reg) (stk := s.stk) hI hn hfit
  have hp := h.stk.pairwise h.ok
  have hk : keep { s.reg with head := align (s.reg.head + n) } ⟨s.reg.head, n⟩ s.stk =
      ⟨s.reg.head, n⟩ :: s.stk := by
    simp only [keep]; rw [if_pos (.inl h0)]
  simp only [hk] at hp
  intro b hb
  have := (List.pairwise_cons.1 hp).1 b hb
  simp only [Disj] at this ⊢
  omega

/-- The rest `w` of a line, whose first `k` characters `u` are in place, is read in the top chunk. -/
theorem reads_rest {s : St} (hI : Inv False s) {c cs} (hn : s.reg.node = c :: cs) (m : Nat → Nat)
    (as : Nat → Nat) (u w inp tl : List Nat) (hw : 10 ∉ w) (he : Ends inp tl)
    (hu : ∀ i (h : i < u.length), m (s.reg.head + i) = u[i])
    (hfit : s.reg.head + (u ++ w).length + 1 ≤ c.fin) :
    Reads s m (u ++ w) tl (getLoop s.reg m u.length as (w ++ inp)) := by
  obtain ⟨hperm, hok, halg, hdvd, ⟨c', cs', hn', htop⟩, hstk⟩ := id hI
  rw [hn] at hn'
  obtain ⟨rfl, rfl⟩ := List.cons.inj hn'
  have hc : c ∈ s.reg.heap := hperm.mem_iff.2 (by simp [hn])
  have hge := align_ge c.base
  have hb : c.base ≤ s.reg.head := by omega
  rw [List.length_append] at hfit
  have h1 := getLoop_prefix hn hc hb as inp w m u.length hw (by omega)
  rw [getLoop_end hn hc hb as he _ _ (by omega)] at h1
  have hD := disj_head hI hn (n := (u ++ w).length + 1) (by omega) (by rw [List.length_append]; omega)
  right
  refine ⟨_, _, _, h1, ⟨?_, ?_⟩, ?_, ?_, ?_⟩
  · intro i h
    rw [List.length_append] at h
    dsimp only
    rw [if_neg (by omega)]
    by_cases hiu : i < u.length
    · rw [wr_out _ _ _ _ (by omega), hu i hiu, List.getElem_append_left hiu]
    · rw [List.getElem_append_right (by omega),
        show s.reg.head + i = s.reg.head + u.length + (i - u.length) by omega]
      exact wr_at _ _ _ _ (by omega)
  · simp
  · refine ⟨c, hc, hb, ?_⟩
    rw [List.length_append]; simp only [Chunk.fin] at *; omega
  · have := align_ge (s.reg.head + (u.length + w.length + 1))
    rw [List.length_append]; simp only; omega
  · intro b hb'
    refine ⟨hD b hb', fun i hi => ?_⟩
    have := hD b hb'
    simp only [Disj, List.length_append] at this
    rw [if_neg (by omega)]
    exact wr_out _ _ _ _ (by omega)

/-- **C77 (partial)**, `aa_io_getline`: a line that fits together with its terminator in the unused part
of the top chunk is read. -/
theorem C77_getline_partial (s : St) (hs : Reach s) (c : Chunk) (cs : List Chunk)
    (hn : s.reg.node = c :: cs) (m : Nat → Nat) (as : Nat → Nat) (line inp tl : List Nat)
    (hl : 10 ∉ line) (he : Ends inp tl) (hfit : s.reg.head + line.length + 1 ≤ c.fin) :
    Reads s m line tl (getline s.reg m as (line ++ inp)) := by
  have := reads_rest hs.inv hn m as [] line inp tl hl he (by simp) (by simpa using hfit)
  simpa [getline] using this

/-- Growth of a chunk in use copies what was written after the head. -/
theorem tmprealloc_grow {s : St} (hI : Inv False s) {c cs} (m : Nat → Nat) (n a : Nat)
    (hn : s.reg.node = c :: cs) (hused : align c.base < s.reg.head) (hend : s.reg.head ≤ c.fin)
    (hbig : c.fin < s.reg.head + n) :
    tmprealloc s.reg m n a = .oracle ∨ ∃ r m', tmprealloc s.reg m n a = .ok (r, m', r.head) ∧
      Inv False ⟨r, s.stk⟩ ∧ (∃ c' cs', r.node = c' :: cs' ∧ r.head + n ≤ c'.fin ∧
        r.head + 2 * c.size < c'.fin) ∧
      (∀ i, s.reg.head + i < c.fin → m' (r.head + i) = m (s.reg.head + i)) ∧
      (∀ b ∈ s.stk, ∀ i < b.size, m' (b.addr + i) = m (b.addr + i)) := by
  have hg := grow_spec hI n a (fun h => h.elim)
  obtain ⟨hperm, hok, halg, hdvd, _, hstk⟩ := hI
  obtain ⟨⟨head, node, heap⟩, stk⟩ := s
  dsimp only at *
  subst hn
  have hne : align c.base ≠ head := by omega
  rcases nodeAlloc_cases heap (max (2 * c.size) (n + ALIGN)) a with h | ⟨h, h0, hd⟩
  · left
    simp [tmprealloc, tmpalloc, grow, hbig, hne, h]
  · right
    have hge2 := align_ge (a + HDR)
    have hlt2 := align_lt (a + HDR)
    have hap := hd c (hperm.mem_iff.2 (by simp))
    have hpos := hok.pos c (by simp)
    have hge := align_ge c.base
    have hmax1 : max (2 * c.size) (n + ALIGN) ≥ n + ALIGN := Nat.le_max_right _ _
    have hmax2 : max (2 * c.size) (n + ALIGN) ≥ 2 * c.size := Nat.le_max_left _ _
    simp only [grow, hne, if_false, h, Out.bind_ok, Out.pure_eq] at hg
    generalize hM : max (2 * c.size) (n + ALIGN) = M at *
    have hI2 : Inv False ⟨⟨align (a + HDR), ⟨a + HDR, M + ALIGN⟩ :: c :: cs,
        ⟨a + HDR, M + ALIGN⟩ :: heap⟩, stk⟩ := by
      rcases hg with hg | ⟨r, hr, hI2, -⟩
      · cases hg
      · cases hr; exact hI2
    have hne2 : head ≠ align (a + HDR) := by
      simp only [Chunk.apart, Chunk.fin, HDR, ALIGN] at *
      omega
    have hr1 : readable (⟨a + HDR, M + ALIGN⟩ :: heap) (align (a + HDR)) (c.fin - head) = true := by
      simp only [readable, List.any_cons, Bool.or_eq_true, decide_eq_true_eq]
      left
      simp only [Chunk.fin, HDR, ALIGN] at *
      omega
    have hr2 : readable (⟨a + HDR, M + ALIGN⟩ :: heap) head (c.fin - head) = true := by
      simp only [readable, List.any_cons, Bool.or_eq_true, decide_eq_true_eq, List.any_eq_true]
      right
      refine ⟨c, hperm.mem_iff.2 (by simp), ?_⟩
      omega
    have hdis : align (a + HDR) + (c.fin - head) ≤ head ∨
        head + (c.fin - head) ≤ align (a + HDR) := by
      simp only [Chunk.apart, Chunk.fin, HDR, ALIGN] at *
      omega
    refine ⟨⟨align (a + HDR), ⟨a + HDR, M + ALIGN⟩ :: c :: cs, ⟨a + HDR, M + ALIGN⟩ :: heap⟩,
      fun x => if align (a + HDR) ≤ x ∧ x < align (a + HDR) + (c.fin - head) then
        m (head + (x - align (a + HDR))) else m x, ?_, hI2, ?_, ?_, ?_⟩
    · simp only [tmprealloc, tmpalloc, grow, gt_iff_lt, hbig, if_true, hne, if_false, hM, h,
        Out.bind_ok, Out.pure_eq, hend, ne_eq, hne2, not_false_eq_true, memcpy, hr1, hr2, hdis,
        and_self]
    · refine ⟨_, _, rfl, ?_, ?_⟩ <;> simp only [Chunk.fin, HDR, ALIGN] at * <;> omega
    · intro i hi
      dsimp only
      rw [if_pos (by omega)]
      congr 1; omega
    · intro b hb i hi
      obtain ⟨e, he, h1, h2, _⟩ := hstk.mem hb
      have hape := hd e (hperm.mem_iff.2 he)
      have hpose := hok.pos e he
      have hgee := align_ge e.base
      dsimp only
      rw [if_neg]
      simp only [Chunk.apart, Chunk.fin, HDR, ALIGN] at *
      omega

/-- **C77 (partial)**, `aa_io_getline`: a line longer than the unused part of a top chunk that already
holds something is moved to a new chunk and read, up to twice the size of the old chunk. -/
theorem C77_getline_grow_partial (s : St) (hs : Reach s) (c : Chunk) (cs : List Chunk)
    (hn : s.reg.node = c :: cs) (m : Nat → Nat) (as : Nat → Nat) (line inp tl : List Nat)
    (hl : 10 ∉ line) (he : Ends inp tl) (hused : align c.base < s.reg.head) (hend : s.reg.head ≤ c.fin)
    (hbig : c.fin < s.reg.head + line.length) (hmax : line.length ≤ 2 * c.size) :
    Reads s m line tl (getline s.reg m as (line ++ inp)) := by
  have hI := hs.inv
  have hc : c ∈ s.reg.heap := hI.perm.mem_iff.2 (by simp [hn])
  have hge := align_ge c.base
  obtain ⟨u, i, w, rfl, hu⟩ : ∃ u i w, line = u ++ i :: w ∧ s.reg.head + u.length = c.fin := by
    have hk : c.fin - s.reg.head < line.length := by omega
    refine ⟨line.take (c.fin - s.reg.head), line[c.fin - s.reg.head],
      line.drop (c.fin - s.reg.head + 1), ?_, ?_⟩
    · rw [← List.drop_eq_getElem_cons hk, List.take_append_drop]
    · rw [List.length_take]; omega
  have hi : i ≠ 10 := by rintro rfl; simp at hl
  have hu10 : 10 ∉ u := fun h => hl (List.mem_append_left _ h)
  have hw10 : 10 ∉ w := fun h => hl (List.mem_append_right _ (List.mem_cons_of_mem _ h))
  unfold getline
  rw [List.append_assoc, getLoop_prefix hn hc (by omega) as _ u m 0 hu10 (by omega)]
  simp only [Nat.add_zero, Nat.zero_add, List.cons_append, getLoop]
  rw [if_neg hi]
  rcases tmprealloc_grow hI (wr m s.reg.head u) (u.length + 1) (as u.length) hn hused hend (by omega)
    with h | ⟨r, m', h, hI', ⟨c', cs', hn', hf1, hf2⟩, hcopy, hkeep⟩
  · left; rw [h]; rfl
  · rw [h]
    simp only [Out.bind_ok]
    have hc' : c' ∈ r.heap := hI'.perm.mem_iff.2 (by simp [hn'])
    obtain ⟨c2, cs2, hn2, htop⟩ := hI'.top
    have : c2 = c' := by
      have := hn'.symm.trans hn2
      simpa using (List.cons.inj this).1.symm
    subst this
    have hge' := align_ge c2.base
    dsimp only at htop
    rw [store_ok hc' m' _ _ (by omega) (by omega)]
    simp only [Out.bind_ok]
    have hlen : (u ++ i :: w).length = u.length + w.length + 1 := by simp; omega
    have key := reads_rest hI' hn' (fun x => if x = r.head + u.length then i else m' x) as (u ++ [i]) w
      inp tl hw10 he ?_ ?_
    · rw [List.length_append, List.length_singleton, List.append_assoc, List.singleton_append] at key
      rcases key with h | ⟨r2, m2, p, h1, h2, h3, h4, h5⟩
      · exact .inl h
      · refine .inr ⟨r2, m2, p, h1, h2, h3, h4, fun b hb => ⟨(h5 b hb).1, fun k hk => ?_⟩⟩
        rw [(h5 b hb).2 k hk]
        have hd := disj_head hI' hn' (n := u.length + 1) (by omega) (by dsimp only; omega) b hb
        have hd0 : u.length = 0 ∨ Disj b ⟨s.reg.head, u.length⟩ := by
          rcases Nat.eq_zero_or_pos u.length with h | h
          · exact .inl h
          · exact .inr (disj_head hI hn h (by omega) b hb)
        simp only [Disj] at hd hd0
        dsimp only at hd hd0 ⊢
        rw [if_neg (by omega), hkeep b hb k hk]
        exact wr_out _ _ _ _ (by omega)
    · intro k hk
      rw [List.length_append, List.length_singleton] at hk
      dsimp only
      by_cases h : k < u.length
      · rw [if_neg (by omega), hcopy k (by omega), wr_at _ _ _ _ h, List.getElem_append_left h]
      · obtain rfl : k = u.length := by omega
        rw [if_pos rfl]; simp
    · rw [hlen] at hmax
      simp only [List.length_append, List.length_singleton]
      omega

/-! ### Where it fails -/

/-- A fresh region of 64 bytes: 80 bytes are usable. -/
def fresh : Reg := ⟨1040, [⟨1040, 80⟩], [⟨1040, 80⟩]⟩

theorem fresh_reach : Reach ⟨fresh, []⟩ := ⟨64, 1024, [], .inl ⟨by decide, by simp⟩, rfl⟩

/-- Lines for the first theorem: anything up to 79 characters in a fresh region. -/
example (line tl : List Nat) (hl : 10 ∉ line) (h : line.length < 80) (m : Nat → Nat) (as : Nat → Nat) :
    Reads ⟨fresh, []⟩ m line tl (getline fresh m as (line ++ 10 :: tl)) :=
  C77_getline_partial _ fresh_reach _ _ rfl m as line _ tl hl (.nl tl)
    (by show 1040 + line.length + 1 ≤ 1120; omega)

/-- Lines for the second theorem: after a block of 20 bytes, anything from 49 to 160 characters. -/
example (line tl : List Nat) (hl : 10 ∉ line) (h : 49 ≤ line.length) (h' : line.length ≤ 160)
    (m : Nat → Nat) (as : Nat → Nat) : ∃ s : St, Reach s ∧
    Reads s m line tl (getline s.reg m as (line ++ 10 :: tl)) := by
  refine ⟨⟨⟨1072, [⟨1040, 80⟩], [⟨1040, 80⟩]⟩, [⟨1040, 20⟩]⟩,
    ⟨64, 1024, [.alloc 20 0], .inl ⟨by decide, by decide⟩, rfl⟩, ?_⟩
  exact C77_getline_grow_partial _ ⟨64, 1024, [.alloc 20 0], .inl ⟨by decide, by decide⟩, rfl⟩ _ _ rfl
    m as line _ tl hl (.nl tl) (by decide) (by decide)
    (by show 1120 < 1072 + line.length; omega) (by show line.length ≤ 2 * 80; omega)

/-- **C77 is violated by `aa_io_getline`** when the line exactly fills the chunk: the final allocation
for the terminator moves to a new chunk and does not copy. Every line of 80 characters read into a
fresh region comes back as whatever the new chunk contained. -/
theorem C77_violates_exact_fill (line tl : List Nat) (hl : 10 ∉ line) (h : line.length = 80)
    (m : Nat → Nat) (as : Nat → Nat) (ha : as 80 = 8192) :
    ∃ r m' p, getline fresh m as (line ++ 10 :: tl) = .ok (r, m', p, tl) ∧
      (∀ i < 80, m' (p + i) = m (p + i)) ∧
      ((∃ i, ∃ hi : i < line.length, m (8208 + i) ≠ line[i]) → ¬ IsStr m' p line) := by
  have h1 := getLoop_prefix (r := fresh) (c := ⟨1040, 80⟩) (cs := []) rfl (by decide) (by decide) as
    (10 :: tl) line m 0 hl (by rw [h]; decide)
  have hal : alloc fresh 81 8192 = .ok (⟨8304, [⟨8208, 176⟩], [⟨8208, 176⟩]⟩, 8208) := by decide
  have hm : ∀ i, i < 80 → wr m (fresh.head + 0) line (8208 + i) = m (8208 + i) := fun i hi =>
    wr_out _ _ _ _ (.inr (by rw [h]; show 1040 + 0 + 80 ≤ _; omega))
  have h2 : getline fresh m as (line ++ 10 :: tl) = .ok (⟨8304, [⟨8208, 176⟩], [⟨8208, 176⟩]⟩,
      fun x => if x = 8208 + 80 then 0 else wr m (fresh.head + 0) line x, 8208, tl) := by
    rw [getline, h1]
    simp only [getLoop, if_true, h, Nat.zero_add, ha, hal, Out.bind_ok]
    rw [store_ok (c := ⟨8208, 176⟩) (by decide) _ _ _ (by decide) (by decide)]
    rfl
  refine ⟨_, _, _, h2, ?_, ?_⟩
  · intro i hi
    rw [if_neg (by omega), hm i hi]
  · rintro ⟨i, hi, hne⟩ ⟨h3, -⟩
    apply hne
    have := h3 i hi
    dsimp only at this
    rw [if_neg (by omega), hm i (by omega)] at this
    exact this

/-- **C77 is violated by `aa_io_getline`** when the line is longer than an unused chunk: growing frees the
chunk that holds the characters read so far, and then copies from it. Every line of more than 80
characters read into a fresh region is undefined behaviour. -/
theorem C77_violates_fresh_region (line inp : List Nat) (hl : 10 ∉ line) (h : 80 < line.length)
    (m : Nat → Nat) (as : Nat → Nat) (ha : as 80 = 8192) :
    getline fresh m as (line ++ inp) = .ub := by
  obtain ⟨u, i, w, rfl, hu⟩ : ∃ u i w, line = u ++ i :: w ∧ u.length = 80 :=
    ⟨line.take 80, line[80], line.drop 81, by
      rw [← List.drop_eq_getElem_cons h, List.take_append_drop], by rw [List.length_take]; omega⟩
  have hi : i ≠ 10 := by rintro rfl; simp at hl
  have hu10 : 10 ∉ u := fun h => hl (List.mem_append_left _ h)
  have h1 := getLoop_prefix (r := fresh) (c := ⟨1040, 80⟩) (cs := []) rfl (by decide) (by decide) as
    (i :: w ++ inp) u m 0 hu10 (by rw [hu]; decide)
  rw [getline, List.append_assoc, h1]
  simp only [List.cons_append, getLoop]
  rw [if_neg hi, hu, Nat.zero_add, ha, C07_violates_empty_chunk fresh ⟨1040, 80⟩ [] _ 81 8192 rfl
    (by decide) ⟨by decide, by decide⟩ (by decide) (by decide) (by decide) (by decide) (by decide)]
  rfl

/-- Such lines exist. -/
example : 10 ∉ List.replicate 80 97 ∧ (List.replicate 80 97).length = 80 := by simp
example : 10 ∉ List.replicate 100 97 ∧ 80 < (List.replicate 100 97).length := by simp

/-- **C77**, `aa_read_realloc`: the bytes requested from `read` lie in the buffer after the offset, at
least one is requested (so that a return of zero means the end of the file), and the buffer does not
shrink. -/
theorem C77_read_realloc (off mx : Nat) (h : off ≤ mx) :
    let r := readRealloc off mx
    off + r.2 = r.1 ∧ 1 ≤ r.2 ∧ mx ≤ r.1 ∧ r.1 ≤ max (2 * mx) 16 := by
  simp only [readRealloc]
  have h1 : 2 * mx ≤ Nat.max (2 * mx) 16 := Nat.le_max_left _ _
  have h2 : 16 ≤ Nat.max (2 * mx) 16 := Nat.le_max_right _ _
  have e : Nat.max (2 * mx) 16 = max (2 * mx) 16 := rfl
  split <;> simp only [e] at * <;> omega

example : readRealloc 0 0 = (16, 16) ∧ readRealloc 10 20 = (40, 30) := by decide

end Verif.Io
