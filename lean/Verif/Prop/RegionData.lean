import Verif.Model.RegionData
import Verif.Prop.Region

/-!
# C119: filled blocks of a region

Specification: `Fresh` says what a new block is, `Holds` what its bytes are.
-/

namespace Verif.Region

/-- the `n` bytes at `p` are a new block: owned by the region, touching no live block. -/
def Fresh (s : St) (r : Reg) (p n : Nat) : Prop :=
  Owned r p n ∧ (∀ b ∈ s.stk, 0 < n → Disj ⟨p, n⟩ b) ∧ ∀ b ∈ s.stk, Owned r b.addr b.size

/-- the bytes at `p` are `l`. -/
def Holds (m : Nat → Nat) (p : Nat) (l : List Nat) : Prop := ∀ i, ∀ h : i < l.length, m (p + i) = l[i]

/-- the bytes of all live blocks are the same. -/
def Keeps (s : St) (m m' : Nat → Nat) : Prop := ∀ b ∈ s.stk, ∀ x, b.addr ≤ x → x < b.addr + b.size → m' x = m x

/-- memory that can be copied: in a live block, or memory of the client that is no part of the region. -/
def Source (ext : Nat → Nat → Bool) (s : St) (src n a : Nat) : Prop :=
  (∃ b ∈ s.stk, b.addr ≤ src ∧ src + n ≤ b.addr + b.size) ∨
  (ext src n = true ∧ ∀ r p, alloc s.reg n a = .ok (r, p) → ∀ c ∈ r.heap, src + n ≤ c.base ∨ c.fin ≤ src)

theorem Inv.weak {al : Prop} {s : St} (h : Inv al s) : Inv False s :=
  ⟨h.perm, h.ok, fun h => h.elim, h.hdvd, h.top, h.stk⟩

/-- allocation in a state with the invariant. -/
theorem alloc_fresh {s : St} (hI : Inv False s) (n a : Nat) :
    alloc s.reg n a = .oracle ∨ ∃ r p, alloc s.reg n a = .ok (r, p) ∧ Fresh s r p n ∧ readable r.heap p n = true ∧
      ∃ c ∈ r.heap, c.base ≤ p ∧ p + n ≤ c.fin := by
  rcases alloc_spec hI n a (fun h => h.elim) with h | ⟨r, p, h, hIr, _, c, cs, hc, h1, h2⟩
  · exact .inl h
  · have hc' : c ∈ r.heap := hIr.perm.mem_iff.2 (by rw [hc]; simp)
    have own : ∀ b ∈ s.stk, Owned r b.addr b.size := by
      intro b hb
      have hb' : b ∈ keep r ⟨p, n⟩ s.stk := by rw [keep]; split <;> simp [hb]
      obtain ⟨d, hd, k1, k2, _⟩ := hIr.stk.mem hb'
      have := align_ge d.base
      exact ⟨d, hIr.perm.mem_iff.2 hd, by omega, k2⟩
    refine .inr ⟨r, p, h, ⟨⟨c, hc', h1, h2⟩, ?_, own⟩, ?_, c, hc', h1, h2⟩
    · intro b hb hn
      have hpw := hIr.stk.pairwise hIr.ok
      have hk : keep r ⟨p, n⟩ s.stk = ⟨p, n⟩ :: s.stk := by simp [keep, hn]
      simp only [hk] at hpw
      exact (List.pairwise_cons.1 hpw).1 b hb
    · simp only [readable, List.any_eq_true, decide_eq_true_eq]
      exact ⟨c, hc', h1, h2⟩

theorem fresh_keeps {s : St} {r : Reg} {p n : Nat} (hf : Fresh s r p n) {m m' : Nat → Nat}
    (h : ∀ x, ¬ (p ≤ x ∧ x < p + n) → m' x = m x) : Keeps s m m' := by
  intro b hb x h1 h2
  refine h x (fun ⟨h3, h4⟩ => ?_)
  have := hf.2.1 b hb (by omega)
  simp only [Disj] at this
  omega

/-- **C119 (cleared block).** -/
theorem C119_zalloc_partial (s : St) (hs : Reach s) (m : Nat → Nat) (size a : Nat) :
    zalloc s.reg m size a = .oracle ∨ ∃ r m' p, zalloc s.reg m size a = .ok (r, m', p) ∧ Fresh s r p size ∧
      Holds m' p (List.replicate size 0) ∧ Keeps s m m' ∧ ∀ x, ¬ (p ≤ x ∧ x < p + size) → m' x = m x := by
  rcases alloc_fresh hs.inv size a with h | ⟨r, p, h, hf, hr, _⟩
  · left; rw [zalloc, h]; rfl
  · refine .inr ⟨r, fun x => if p ≤ x ∧ x < p + size then 0 else m x, p, ?_, hf, ?_, ?_, ?_⟩
    · rw [zalloc, h]
      show (memset0 r.heap m p size).bind _ = _
      rw [memset0, if_pos hr]; rfl
    · intro i hi
      simp only [List.length_replicate] at hi
      simp only [List.getElem_replicate]
      rw [if_pos (by omega)]
    · exact fresh_keeps hf (fun x hx => if_neg hx)
    · exact fun x hx => if_neg hx

/-- **C119 (copy).** -/
theorem C119_dup_partial (ext : Nat → Nat → Bool) (s : St) (hs : Reach s) (m : Nat → Nat) (src size a : Nat)
    (hsrc : Source ext s src size a) :
    dup ext s.reg m src size a = .oracle ∨ ∃ r m' p, dup ext s.reg m src size a = .ok (r, m', p) ∧ Fresh s r p size ∧
      (∀ i < size, m' (p + i) = m (src + i)) ∧ Keeps s m m' ∧ ∀ x, ¬ (p ≤ x ∧ x < p + size) → m' x = m x := by
  rcases alloc_fresh hs.inv size a with h | ⟨r, p, h, hf, hr, c, hc, hc1, hc2⟩
  · left; rw [dup, h]; rfl
  · have hcond : readable r.heap p size ∧ (readable r.heap src size ∨ ext src size = true) ∧
        (size = 0 ∨ p + size ≤ src ∨ src + size ≤ p) := by
      refine ⟨hr, ?_⟩
      rcases hsrc with ⟨b, hb, b1, b2⟩ | ⟨he, ho⟩
      · obtain ⟨d, hd, d1, d2⟩ := hf.2.2 b hb
        refine ⟨.inl ?_, ?_⟩
        · simp only [readable, List.any_eq_true, decide_eq_true_eq]
          exact ⟨d, hd, by omega, by simp only [Chunk.fin]; omega⟩
        · by_cases h0 : size = 0
          · exact .inl h0
          · have := hf.2.1 b hb (by omega)
            simp only [Disj] at this
            omega
      · refine ⟨.inr he, ?_⟩
        have := ho r p h c hc
        omega
    refine .inr ⟨r, fun x => if p ≤ x ∧ x < p + size then m (src + (x - p)) else m x, p, ?_, hf, ?_, ?_, ?_⟩
    · rw [dup, h]
      show (memcpyIn ext r.heap m p src size).bind _ = _
      rw [memcpyIn, if_pos hcond]; rfl
    · intro i hi
      show (if _ then _ else _) = _
      rw [if_pos (by omega)]
      congr 1; omega
    · exact fresh_keeps hf (fun x hx => if_neg hx)
    · exact fun x hx => if_neg hx

theorem strlen_spec (m : Nat → Nat) (n : Nat) : ∀ p fuel, (∀ i < n, m (p + i) ≠ 0) → m (p + n) = 0 → n < fuel →
    strlen m p fuel = some n := by
  induction n with
  | zero =>
    intro p fuel _ h0 hf
    obtain ⟨f, rfl⟩ := Nat.exists_eq_succ_of_ne_zero (by omega : fuel ≠ 0)
    rw [strlen, if_pos (by simpa using h0)]
  | succ n ih =>
    intro p fuel h h0 hf
    obtain ⟨f, rfl⟩ := Nat.exists_eq_succ_of_ne_zero (by omega : fuel ≠ 0)
    rw [strlen, if_neg (by simpa using h 0 (by omega)),
      ih (p + 1) f (fun i hi => by rw [Nat.add_assoc, Nat.add_comm 1]; exact h (i + 1) (by omega))
        (by rw [Nat.add_assoc, Nat.add_comm 1]; exact h0) (by omega)]
    rfl

/-- **C119 (copy of a string).** -/
theorem C119_strdup_partial (ext : Nat → Nat → Bool) (s : St) (hs : Reach s) (m : Nat → Nat) (str a n : Nat)
    (h1 : ∀ i < n, m (str + i) ≠ 0) (h0 : m (str + n) = 0) (hn : n < 2 ^ 64)
    (hsrc : Source ext s str (1 + n) a) :
    strdup ext s.reg m str a = .oracle ∨ ∃ r m' p, strdup ext s.reg m str a = .ok (r, m', p) ∧ Fresh s r p (1 + n) ∧
      (∀ i < n, m' (p + i) = m (str + i) ∧ m' (p + i) ≠ 0) ∧ m' (p + n) = 0 ∧ Keeps s m m' := by
  have e : strdup ext s.reg m str a = dup ext s.reg m str (1 + n) a := by
    rw [strdup, strlen_spec m n str (2 ^ 64) h1 h0 hn]
  rw [e]
  rcases C119_dup_partial ext s hs m str (1 + n) a hsrc with h | ⟨r, m', p, h, hf, hb, hk, _⟩
  · exact .inl h
  · refine .inr ⟨r, m', p, h, hf, fun i hi => ⟨hb i (by omega), ?_⟩, ?_, hk⟩
    · rw [hb i (by omega)]; exact h1 i hi
    · rw [hb n (by omega)]; exact h0

/-! ## Formatted text -/

/-- the unused end of the top chunk touches no live block. -/
theorem free_apart {s : St} (hI : Inv False s) {c : Chunk} {cs : List Chunk} (hc : s.reg.node = c :: cs)
    (b : Blk) (hb : b ∈ s.stk) (x : Nat) (h1 : s.reg.head ≤ x) (h2 : x < c.fin) : ¬ (b.addr ≤ x ∧ x < b.addr + b.size) := by
  obtain ⟨c', cs', hc', htop⟩ := hI.top
  rw [hc] at hc'
  obtain ⟨rfl, rfl⟩ := List.cons.inj hc'
  have st : Stk (c :: cs) c.fin (⟨s.reg.head, c.fin - s.reg.head⟩ :: s.stk) :=
    .blk c cs c.fin ⟨s.reg.head, c.fin - s.reg.head⟩ s.stk htop hI.hdvd (by simp only; omega) (by simp only; omega)
      (.inl (by simp only; omega)) (by have := hI.stk; rwa [hc] at this)
  have ok := hI.ok
  rw [hc] at ok
  have := (List.pairwise_cons.1 (Stk.pairwise ok st)).1 b hb
  simp only [Disj] at this
  omega

theorem cint_small {n : Nat} (h : n < 2 ^ 31) : cint n = n := by
  rw [cint, Nat.mod_eq_of_lt (by omega), if_pos h]

/-- writing the text into the unused end of the top chunk. -/
theorem vsn_spec {s : St} (hI : Inv False s) {c : Chunk} {cs : List Chunk} (hc : s.reg.node = c :: cs)
    (m : Nat → Nat) (text : List Nat) :
    ∃ n m', freesize s.reg = .ok n ∧ n = c.fin - s.reg.head ∧ vsnprintf s.reg.heap m s.reg.head n text = .ok m' ∧
      Keeps s m m' ∧ (∀ x, (∀ d ∈ s.reg.heap, ¬ (d.base ≤ x ∧ x < d.fin)) → m' x = m x) ∧
      (text.length < n → Holds m' s.reg.head (text ++ [0])) := by
  obtain ⟨c', cs', hc', htop⟩ := hI.top
  have hcc := hc
  rw [hc] at hc'
  obtain ⟨rfl, rfl⟩ := List.cons.inj hc'
  have hmem : c ∈ s.reg.heap := hI.perm.mem_iff.2 (by rw [hc]; simp)
  have hbase := align_ge c.base
  have e : freesize s.reg = .ok (c.fin - s.reg.head) := by
    rw [freesize, hc]
    simp only
    split
    · congr 1; omega
    · rfl
  refine ⟨c.fin - s.reg.head, ?_⟩
  by_cases h0 : c.fin - s.reg.head = 0
  · refine ⟨m, e, rfl, ?_, fun _ _ _ _ _ => rfl, fun _ _ => rfl, fun h => by omega⟩
    rw [vsnprintf, if_pos h0]
  · have hr : readable s.reg.heap s.reg.head (c.fin - s.reg.head) = true := by
      simp only [readable, List.any_eq_true, decide_eq_true_eq]
      exact ⟨c, hmem, by omega, by omega⟩
    refine ⟨_, e, rfl, by rw [vsnprintf, if_neg h0, if_pos hr], ?_, ?_, ?_⟩
    · intro b hb x h1 h2
      have := free_apart hI hcc b hb x
      show (if _ then _ else (if _ then _ else _)) = _
      rw [if_neg (by omega), if_neg (by omega)]
    · intro x hx
      have := hx c hmem
      show (if _ then _ else (if _ then _ else _)) = _
      rw [if_neg (by omega), if_neg (by omega)]
    · intro hl i hi
      show (if _ then _ else (if _ then _ else _)) = _
      rw [Nat.min_eq_left (by omega)]
      simp only [List.length_append, List.length_singleton] at hi
      rcases Nat.lt_or_ge i text.length with h | h
      · rw [if_pos (by omega), List.getElem_append_left h, show s.reg.head + i - s.reg.head = i by omega]
        simp [List.getD, h]
      · have : i = text.length := by omega
        subst this
        rw [if_neg (by omega), if_pos rfl]
        simp

/-- **C119 (formatted text, partial: chunks below 2 GiB).** The loop ends after at most two rounds. -/
theorem C119_printf_partial (s : St) (hs : Reach s) (m : Nat → Nat) (text : List Nat) (orc : Nat → Nat) (fuel a : Nat)
    (hsize : ∀ c ∈ s.reg.node, 2 * c.size + text.length + 64 < 2 ^ 31) :
    vprintf text orc (fuel + 2) s.reg m a = .oracle ∨
    ∃ r m' p, vprintf text orc (fuel + 2) s.reg m a = .ok (some (r, m', p)) ∧ Fresh s r p (text.length + 1) ∧
      Holds m' p (text ++ [0]) ∧ Keeps s m m' := by
  have hI := hs.inv
  obtain ⟨c, cs, hc, htop⟩ := hI.top
  have hsz := hsize c (by rw [hc]; simp)
  have hbase := align_ge c.base
  -- the last round
  have last : ∀ (r : Reg) (m1 : Nat → Nat) (c : Chunk) (cs : List Chunk) (f : Nat), Inv False ⟨r, s.stk⟩ → r.node = c :: cs →
      c.size < 2 ^ 31 → text.length < c.fin - r.head → Keeps s m m1 →
      ∃ r' m' p, ((vprintfLoop text orc (f + 1) r m1).bind (vprintfEnd text a)) = .ok (some (r', m', p)) ∧ Fresh s r' p (text.length + 1) ∧
        Holds m' p (text ++ [0]) ∧ Keeps s m m' := by
    intro r m1 c cs f hIr hn hz hlen hk
    obtain ⟨n, m2, e1, e2, e3, k1, _, k3⟩ := vsn_spec hIr hn m1 text
    obtain ⟨c', cs', hn', htop'⟩ := hIr.top
    simp only at hn'
    rw [hn] at hn'
    obtain ⟨rfl, rfl⟩ := List.cons.inj hn'
    have hb := align_ge c.base
    simp only at e2 htop'
    have hn31 : n < 2 ^ 31 := by simp only [Chunk.fin] at e2; omega
    have el : vprintfLoop text orc (f + 1) r m1 = .ok (some (r, m2)) := by
      rw [vprintfLoop]
      show (freesize r).bind _ = _
      rw [show freesize r = .ok n from e1]
      show (vsnprintf r.heap m1 r.head n text).bind _ = _
      rw [show vsnprintf r.heap m1 r.head n text = .ok m2 from e3]
      show (if _ then _ else _) = _
      rw [if_neg (by rw [cint_small hn31]; omega)]
      rfl
    rw [el]
    show ∃ r' m' p, vprintfEnd text a (some (r, m2)) = _ ∧ _
    have ea : alloc r (text.length + 1) a = .ok ({ r with head := align (r.head + (text.length + 1)) }, r.head) := by
      rw [alloc, hn]
      simp only
      rw [if_neg (by omega)]
    rcases alloc_fresh hIr (text.length + 1) a with h | ⟨r', p', h, hf, _⟩
    · rw [ea] at h; cases h
    · simp only [ea, Out.ok.injEq, Prod.mk.injEq] at h
      obtain ⟨rfl, rfl⟩ := h
      refine ⟨_, m2, r.head, ?_, hf, k3 (by omega), fun b hb x h1 h2 => (k1 b hb x h1 h2).trans (hk b hb x h1 h2)⟩
      rw [vprintfEnd]
      show (alloc r (text.length + 1) a).bind _ = _
      rw [ea]; rfl
  have unf : ∀ f r m1, vprintf text orc f r m1 a = (vprintfLoop text orc f r m1).bind (vprintfEnd text a) := fun _ _ _ => rfl
  rw [unf]
  by_cases hfit : text.length < c.fin - s.reg.head
  · right
    exact last s.reg m c cs (fuel + 1) hI hc (by omega) hfit (fun _ _ _ _ _ => rfl)
  · obtain ⟨n, m2, e1, e2, e3, k1, _, k3⟩ := vsn_spec hI hc m text
    have hn31 : n < 2 ^ 31 := by simp only [Chunk.fin] at e2; omega
    have el : vprintfLoop text orc (fuel + 2) s.reg m =
        (tmpalloc s.reg (text.length + 1) (orc (fuel + 1))).bind (fun x => vprintfLoop text orc (fuel + 1) x.1 m2) := by
      rw [vprintfLoop]
      show (freesize s.reg).bind _ = _
      rw [e1]
      show (vsnprintf s.reg.heap m s.reg.head n text).bind _ = _
      rw [e3]
      show (if _ then _ else _) = _
      rw [if_pos (by rw [cint_small hn31]; omega)]
      rfl
    have et : tmpalloc s.reg (text.length + 1) (orc (fuel + 1)) =
        (grow s.reg (text.length + 1) (orc (fuel + 1))).bind (fun r => .ok (r, r.head)) := by
      rw [tmpalloc, hc]
      simp only
      rw [if_pos (by omega)]
      rfl
    rw [el, et]
    rcases grow_spec hI (text.length + 1) (orc (fuel + 1)) (fun h => h.elim) with h | ⟨r, h, hIr, c', cs', hn', hh', hf', _⟩
    · left; rw [h]; rfl
    · right
      rw [h]
      have hsz' : c'.size < 2 ^ 31 := by
        have hg := h
        rw [grow, hc] at hg
        simp only at hg
        have key : ∀ heap t heap' sz ad, nodeAlloc heap sz ad = .ok (t, heap') → t.size = sz + ALIGN := by
          intro heap t heap' sz ad hh
          rw [nodeAlloc] at hh
          split at hh
          · cases hh; rfl
          · cases hh
        have fin : ∀ t : Chunk, t.size = max (2 * c.size) (text.length + 1 + ALIGN) + ALIGN → t.size < 2 ^ 31 := by
          intro t ht
          simp only [ALIGN] at ht
          omega
        split at hg
        · have hpm := hI.perm
          rw [hc] at hpm
          obtain ⟨hp', hpf, _⟩ := nodeFree_perm hpm
          change (nodeFree s.reg.heap c).bind _ = _ at hg
          rw [hpf] at hg
          change (nodeAlloc hp' _ _).bind _ = _ at hg
          rcases hna : nodeAlloc hp' (max (2 * c.size) (text.length + 1 + ALIGN)) (orc (fuel + 1)) with ⟨t, hp2⟩ | _ | _
          · rw [hna] at hg
            change Out.ok _ = _ at hg
            have := key _ _ _ _ _ hna
            cases hg
            simp only [List.cons.injEq] at hn'
            rw [← hn'.1]
            exact fin t this
          · rw [hna] at hg; cases hg
          · rw [hna] at hg; cases hg
        · change (nodeAlloc s.reg.heap _ _).bind _ = _ at hg
          rcases hna : nodeAlloc s.reg.heap (max (2 * c.size) (text.length + 1 + ALIGN)) (orc (fuel + 1)) with ⟨t, hp2⟩ | _ | _
          · rw [hna] at hg
            change Out.ok _ = _ at hg
            have := key _ _ _ _ _ hna
            cases hg
            simp only [List.cons.injEq] at hn'
            rw [← hn'.1]
            exact fin t this
          · rw [hna] at hg; cases hg
          · rw [hna] at hg; cases hg
      exact last r m2 c' cs' fuel hIr hn' hsz' (by omega) k1

/-- **C119 is violated**: in a region with 2 GiB free no text that fits is ever returned. -/
theorem C119_violates_large (r : Reg) (c : Chunk) (cs : List Chunk) (m : Nat → Nat) (text : List Nat) (orc : Nat → Nat)
    (hc : r.node = c :: cs) (hmem : c ∈ r.heap) (hb : c.base ≤ r.head) (h1 : r.head + 2 ^ 31 ≤ c.fin)
    (h2 : c.fin < r.head + 2 ^ 32) (ht : text.length < 2 ^ 31) (fuel a : Nat) : vprintf text orc fuel r m a = .ok none := by
  have loop : ∀ fuel m, vprintfLoop text orc fuel r m = .ok none := by
    intro fuel
    induction fuel with
    | zero => intro m; rfl
    | succ f ih =>
      intro m
      have e : freesize r = .ok (c.fin - r.head) := by
        rw [freesize, hc]; simp only; rw [if_neg (by omega)]
      rw [vprintfLoop]
      show (freesize r).bind _ = _
      rw [e]
      have hr : readable r.heap r.head (c.fin - r.head) = true := by
        simp only [readable, List.any_eq_true, decide_eq_true_eq]
        exact ⟨c, hmem, hb, by omega⟩
      show (vsnprintf r.heap m r.head (c.fin - r.head) text).bind _ = _
      rw [vsnprintf, if_neg (by omega), if_pos hr]
      show (if _ then _ else _) = _
      rw [if_pos (by rw [cint, Nat.mod_eq_of_lt (by omega), if_neg (by omega)]; omega)]
      show (tmpalloc r (text.length + 1) (orc f)).bind _ = _
      have : tmpalloc r (text.length + 1) (orc f) = .ok (r, r.head) := by
        rw [tmpalloc, hc]; simp only; rw [if_neg (by omega)]
      rw [this]
      exact ih _
  show (vprintfLoop text orc fuel r m).bind _ = _
  rw [loop]
  rfl

/-- a region initialized with 2 GiB is such a region. -/
example : ∃ s, start (2 ^ 31) 16 [] = .ok s ∧ s.reg.node = [⟨32, 2 ^ 31 + 16⟩] ∧ s.reg.head = 32 ∧
    s.reg.heap = [⟨32, 2 ^ 31 + 16⟩] := ⟨_, rfl, rfl, rfl, rfl⟩

/-- copying out of a temporary block, which is no live block, reads freed memory. -/
theorem C119_violates_temporary : ∃ s r p, Reach s ∧ tmpalloc s.reg 8 0 = .ok (r, p) ∧
    dup (fun _ _ => false) r (fun _ => 0) p 1000 4096 = .ub := by
  refine ⟨_, _, _, ⟨64, 1024, [], .inl ⟨by decide, by decide⟩, rfl⟩, rfl, rfl⟩

/-- a reachable state with live blocks in which all of this can be done. -/
example : ∃ s, Reach s ∧ s.stk ≠ [] ∧
    (∃ r m' p, dup (fun _ _ => false) s.reg (fun x => x) (s.stk.head?.elim 0 Blk.addr) 4 65536 = .ok (r, m', p)) ∧
    ∀ c ∈ s.reg.node, 2 * c.size + 5 + 64 < 2 ^ 31 := by
  refine ⟨_, ⟨64, 1024, demoOps, .inl ⟨by decide, by decide⟩, rfl⟩, by decide, ⟨_, _, _, rfl⟩, by decide⟩

end Verif.Region
