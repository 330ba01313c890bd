import Verif.Model.Bits

/-! Properties C11, C12: bit sets. -/

namespace Verif.Bits

/-- Specification: bit `i` of the set stored in the words of `b` (bit `i % 32` of
word `i / 32`), as a mathematical membership. -/
def mem (b : Array Word) (i : Nat) : Prop := ∃ w, b[i / 32]? = some w ∧ w.toNat / 2 ^ (i % 32) % 2 = 1

theorem idx (i : Nat) : i - i / 32 * 32 = i % 32 := by omega

theorem shr_bit (w : Word) (k : Nat) (hk : k < 32) :
    ((w.sshiftRight k) &&& 1#32).toNat = (w.getLsbD k).toNat := by
  have : (w.sshiftRight k) &&& 1#32 = if w.getLsbD k then 1#32 else 0#32 := by
    apply BitVec.eq_of_getLsbD_eq
    intro i hi
    rw [BitVec.getLsbD_and, BitVec.getLsbD_sshiftRight]
    by_cases h0 : i = 0
    · subst h0
      cases hb : w.getLsbD k <;> simp [hk, hb]
    · have h1 : (1#32).getLsbD i = false := by
        rw [BitVec.getLsbD_one]; simp [h0]
      rw [h1]
      cases hb : w.getLsbD k
      · simp
      · simp only [if_true, Bool.and_false, h1]
  rw [this]
  cases w.getLsbD k <;> rfl

theorem mem_iff (b : Array Word) (i : Nat) :
    mem b i ↔ ∃ w, b[i / 32]? = some w ∧ w.getLsbD (i % 32) = true := by
  simp only [mem, BitVec.getLsbD, Nat.testBit_eq_decide_div_mod_eq, decide_eq_true_eq]

/-- **C11**, reading. `aa_bits_get` returns 1 exactly on members and 0 otherwise. -/
theorem C11_get (b : Array Word) (n i : Nat) (hb : words n ≤ b.size) (hi : i < n) :
    ∃ r, get b i = some r ∧ (r = 1 ↔ mem b i) ∧ (r = 0 ↔ ¬ mem b i) := by
  have hw : i / 32 < b.size := by simp only [words] at hb; split at hb <;> omega
  have hg : b[i / 32]? = some b[i / 32] := by simp [hw]
  refine ⟨(b[i / 32].getLsbD (i % 32)).toNat, ?_, ?_, ?_⟩
  · simp only [get, idx, hg, Option.map_some]
    rw [shr_bit _ _ (by omega)]
  · simp only [mem, hg, Option.some.injEq, exists_eq_left']
    rw [BitVec.getLsbD, Nat.testBit_eq_decide_div_mod_eq]
    by_cases h : b[i / 32].toNat / 2 ^ (i % 32) % 2 = 1 <;> simp [h]
  · simp only [mem, hg, Option.some.injEq, exists_eq_left']
    rw [BitVec.getLsbD, Nat.testBit_eq_decide_div_mod_eq]
    by_cases h : b[i / 32].toNat / 2 ^ (i % 32) % 2 = 1 <;> simp [h]

/-- **C11**, writing. Setting bit `i` succeeds, makes it a member exactly when the
value is nonzero, changes the membership of no other bit, and keeps the length. -/
theorem C11_set (b : Array Word) (n i : Nat) (v : Int) (hb : words n ≤ b.size) (hi : i < n) :
    ∃ b', set b i v = some b' ∧ b'.size = b.size ∧ (mem b' i ↔ v ≠ 0) ∧
      ∀ j, j ≠ i → (mem b' j ↔ mem b j) := by
  have hw : i / 32 < b.size := by simp only [words] at hb; split at hb <;> omega
  have hg : b[i / 32]? = some b[i / 32] := by simp [hw]
  refine ⟨b.setIfInBounds (i / 32) (if v ≠ 0 then b[i / 32] ||| 1#32 <<< (i % 32) else
    b[i / 32] &&& ~~~(1#32 <<< (i % 32))), by simp only [set, hg, idx], by simp, ?_, ?_⟩
  · rw [mem_iff]
    have hk : i % 32 < 32 := by omega
    by_cases hv : v = 0 <;> simp [hw, hv, hk]
  · intro j hj
    rw [mem_iff, mem_iff]
    by_cases hjw : j / 32 = i / 32
    · have hk : ¬ i % 32 = j % 32 := by omega
      have hk' : j % 32 < 32 := by omega
      have hone : (1#32 <<< (i % 32)).getLsbD (j % 32) = false := by
        rw [BitVec.getLsbD_shiftLeft, BitVec.getLsbD_one]
        by_cases hlt : j % 32 < i % 32
        · simp [hlt]
        · have : ¬ (j % 32 - i % 32 = 0) := by omega
          simp [this]
      by_cases hv : v = 0
      · simp only [hv, hjw, hw, ne_eq, not_true_eq_false, if_false, Array.getElem?_setIfInBounds_self_of_lt,
          Option.some.injEq, exists_eq_left', hg, BitVec.getLsbD_and, BitVec.getLsbD_not, hone, hk']
        simp
      · simp only [hv, hjw, hw, ne_eq, not_false_eq_true, if_true, Array.getElem?_setIfInBounds_self_of_lt,
          Option.some.injEq, exists_eq_left', hg, BitVec.getLsbD_or, hone]
        simp
    · rw [Array.getElem?_setIfInBounds_ne (fun h => hjw h.symm)]

/-- **C11**, storage. `aa_bits_words n` is the least number of words holding bits
`0 .. n-1`. -/
theorem C11_words (n w : Nat) : words n ≤ w ↔ ∀ i, i < n → i / 32 < w := by
  constructor
  · intro h i hi
    simp only [words] at h; split at h <;> omega
  · intro h
    rcases Nat.eq_zero_or_pos n with rfl | hn
    · simp [words]
    · have := h (n - 1) (by omega)
      simp only [words]; split <;> omega

/-- **C11**, bounded reading. With `n` the size of the array in octets,
`aa_bits_getn` never reads outside it and returns 1 exactly on members. -/
theorem C11_getn (b : Array Word) (i : Nat) :
    ∃ r, getn b (4 * b.size) i = some r ∧ (r = 1 ↔ mem b i) ∧ (r = 0 ↔ ¬ mem b i) := by
  by_cases h : size (i + 1) > 4 * b.size
  · have hn : ¬ mem b i := by
      rintro ⟨w, h1, _⟩
      have := (Array.getElem?_eq_some_iff.1 h1).1
      simp only [size, words] at h
      split at h <;> omega
    exact ⟨0, by simp [getn, h], by simp [hn], by simp [hn]⟩
  · have hb : words (i + 1) ≤ b.size := by simp only [size] at h; omega
    obtain ⟨r, h1, h2⟩ := C11_get b (i + 1) i hb (by omega)
    exact ⟨r, by simp [getn, h, h1], h2⟩

example : (set #[0#32, 0#32] 63 1).bind (fun b => set b 40 7) = some #[0#32, 0x80000100#32] ∧
    get #[0#32, 0x80000100#32] 63 = some 1 ∧ get #[0#32, 0x80000100#32] 62 = some 0 := by decide

/-! ### C12 -/

/-- The empty set: all three loops return at once and change nothing. -/
theorem C12_bits_ops_empty_partial (f : Word → Word → Word) (fuel : Nat) (a b : Array Word) :
    loop f (words 0) b fuel a = .done a := by
  cases fuel <;> simp [loop, words]

theorem loop_never (f : Word → Word → Word) (n : Nat) (hn : n ≠ 0) (b : Array Word) (fuel : Nat) (a a' : Array Word) :
    loop f n b fuel a ≠ .done a' := by
  induction fuel generalizing a with
  | zero => simp [loop, hn]
  | succ fuel ih =>
    simp only [loop, hn, if_false]
    split
    · exact ih _
    · simp

/-- C12 is violated for every nonempty length: no number of iterations ever
finishes `aa_bits_and`, `aa_bits_or` or `aa_bits_xor`. -/
theorem C12_violates_never_returns (a b : Array Word) (nbits : Nat) (hn : 0 < nbits) (fuel : Nat) (a' : Array Word) :
    and fuel a b nbits ≠ .done a' ∧ or fuel a b nbits ≠ .done a' ∧ xor fuel a b nbits ≠ .done a' := by
  have h : words nbits ≠ 0 := by simp only [words]; split <;> omega
  exact ⟨loop_never _ _ h _ _ _ _, loop_never _ _ h _ _ _ _, loop_never _ _ h _ _ _ _⟩

/-- C12 is violated on exactly sized arrays: the first access is out of bounds. -/
theorem C12_violates_out_of_bounds (a b : Array Word) (nbits : Nat) (hn : 0 < nbits) (ha : a.size = words nbits)
    (fuel : Nat) : and (fuel + 1) a b nbits = .ub ∧ or (fuel + 1) a b nbits = .ub ∧
      xor (fuel + 1) a b nbits = .ub := by
  have h : words nbits ≠ 0 := by simp only [words]; split <;> omega
  have h2 : a[words nbits]? = none := by simp [ha]
  refine ⟨?_, ?_, ?_⟩ <;> simp [and, or, xor, loop, h, h2]

example : and 1000 #[1#32, 1#32] #[3#32, 3#32] 8 = .fuel := by
  cases h : and 1000 #[1#32, 1#32] #[3#32, 3#32] 8 with
  | fuel => rfl
  | done a' => exact absurd h (C12_violates_never_returns _ _ 8 (by omega) 1000 a').1
  | ub =>
    have key : ∀ fuel x, loop (· &&& ·) 1 #[3#32, 3#32] fuel #[1#32, x] ≠ .ub := by
      intro fuel
      induction fuel with
      | zero => intro x; simp [loop]
      | succ fuel ih => intro x; simpa [loop] using ih _
    exact absurd h (key 1000 _)

end Verif.Bits
