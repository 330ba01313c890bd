import Verif.Model.Endian

/-! Property C18: byte order conversion. -/

namespace Verif.Endian

/-- Specification: byte `k` (0 = least significant) of a value. -/
def byte {n : Nat} (x : BitVec (8 * n)) (k : Nat) : UInt8 := UInt8.ofBitVec (x.extractLsb' (8 * k) 8)

/-- Specification: the little / big endian byte string of a value. -/
def leBytes {n : Nat} (x : BitVec (8 * n)) : List UInt8 := (List.range n).map (byte x)
def beBytes {n : Nat} (x : BitVec (8 * n)) : List UInt8 := (leBytes x).reverse

/-- How a host stores a value in memory. -/
def hostBytes (h : Host) {n : Nat} (x : BitVec (8 * n)) : List UInt8 :=
  match h with
  | .little => leBytes x
  | .big => beBytes x

theorem ff_bit (w p : Nat) : (BitVec.ofNat w 0xff).getLsbD p = (decide (p < w) && decide (p < 8)) := by
  rw [BitVec.getLsbD_ofNat]
  have : (255 : Nat).testBit p = decide (p < 8) := by
    have := Nat.testBit_two_pow_sub_one 8 p
    simpa using this
  rw [this]

theorem revLoop_bit (sgn : Bool) {n : Nat} (x : BitVec (8 * n)) (k i : Nat) (y : BitVec (8 * n)) (hik : i + k ≤ n)
    (p : Nat) (hp : p < 8 * n) :
    (revLoop sgn x k i y).getLsbD p =
      (y.getLsbD p || (decide (i ≤ n - 1 - p / 8 ∧ n - 1 - p / 8 < i + k) &&
        x.getLsbD (8 * (n - 1 - p / 8) + p % 8))) := by
  induction k generalizing i y with
  | zero =>
    have : ¬ (i ≤ n - 1 - p / 8 ∧ n - 1 - p / 8 < i + 0) := by omega
    rw [decide_eq_false this]; simp [revLoop]
  | succ k ih =>
    simp only [revLoop]
    rw [ih (i + 1) _ (by omega), BitVec.getLsbD_or]
    have hv : (((if sgn then x.sshiftRight (8 * i) else x >>> (8 * i)) &&& BitVec.ofNat (8 * n) 0xff) <<<
        (8 * n - 8 * i - 8)).getLsbD p =
        (decide (n - 1 - p / 8 = i) && x.getLsbD (8 * (n - 1 - p / 8) + p % 8)) := by
      rw [BitVec.getLsbD_shiftLeft, BitVec.getLsbD_and, ff_bit]
      by_cases h : n - 1 - p / 8 = i
      · have h1 : ¬ p < 8 * n - 8 * i - 8 := by omega
        have h2 : p - (8 * n - 8 * i - 8) = p % 8 := by omega
        have h3 : p % 8 < 8 := by omega
        have h4 : p % 8 < 8 * n := by omega
        have h5 : 8 * i + p % 8 < 8 * n := by omega
        have h6 : (if sgn then x.sshiftRight (8 * i) else x >>> (8 * i)).getLsbD (p % 8) =
            x.getLsbD (8 * i + p % 8) := by
          split
          · rw [BitVec.getLsbD_sshiftRight]
            have : ¬ 8 * n ≤ p % 8 := by omega
            simp [this, h5]
          · rw [BitVec.getLsbD_ushiftRight]
        rw [h2, h6, h, decide_eq_true hp, decide_eq_false h1, decide_eq_true h3, decide_eq_true h4]; simp
      · by_cases h1 : p < 8 * n - 8 * i - 8
        · simp [h, h1]
        · have h2 : ¬ (p - (8 * n - 8 * i - 8) < 8) := by omega
          simp [h, h2]
    rw [hv]
    cases y.getLsbD p with
    | true => simp
    | false =>
      by_cases h : n - 1 - p / 8 = i
      · have : ¬ (i + 1 ≤ n - 1 - p / 8 ∧ n - 1 - p / 8 < i + 1 + k) := by omega
        have h2 : (i ≤ n - 1 - p / 8 ∧ n - 1 - p / 8 < i + (k + 1)) := by omega
        simp only [h, this, h2]
        simp
      · by_cases h2 : i ≤ n - 1 - p / 8 ∧ n - 1 - p / 8 < i + (k + 1)
        · have h3 : i + 1 ≤ n - 1 - p / 8 ∧ n - 1 - p / 8 < i + 1 + k := by omega
          simp only [h, h2, h3]
          simp
        · have h3 : ¬ (i + 1 ≤ n - 1 - p / 8 ∧ n - 1 - p / 8 < i + 1 + k) := by omega
          simp only [h, h2, h3]
          simp

theorem reverse_bit (sgn : Bool) {n : Nat} (x : BitVec (8 * n)) (p : Nat) (hp : p < 8 * n) :
    (reverse sgn x).getLsbD p = x.getLsbD (8 * (n - 1 - p / 8) + p % 8) := by
  rw [reverse, revLoop_bit sgn x n 0 0 (by omega) p hp]
  have : 0 ≤ n - 1 - p / 8 ∧ n - 1 - p / 8 < 0 + n := by omega
  rw [decide_eq_true this]; simp

theorem reverse_byte (sgn : Bool) {n : Nat} (x : BitVec (8 * n)) (k : Nat) (hk : k < n) :
    byte (reverse sgn x) k = byte x (n - 1 - k) := by
  simp only [byte]
  congr 1
  apply BitVec.eq_of_getLsbD_eq
  intro i hi
  rw [BitVec.getLsbD_extractLsb', BitVec.getLsbD_extractLsb', reverse_bit _ _ _ (by omega)]
  have h1 : (8 * k + i) / 8 = k := by omega
  have h2 : (8 * k + i) % 8 = i := by omega
  rw [h1, h2]

theorem leBytes_reverse (sgn : Bool) {n : Nat} (x : BitVec (8 * n)) : leBytes (reverse sgn x) = beBytes x := by
  apply List.ext_getElem
  · simp [leBytes, beBytes]
  · intro i h1 h2
    simp only [leBytes, List.length_map, List.length_range] at h1
    simp only [leBytes, beBytes, List.getElem_map, List.getElem_range, List.getElem_reverse, List.length_map,
      List.length_range]
    exact reverse_byte sgn x i h1

theorem reverseMem_eq (l : List UInt8) : reverseMem l = l.reverse := by
  apply List.ext_getElem
  · simp [reverseMem]
  · intro i h1 h2
    simp only [reverseMem, List.length_map, List.length_range] at h1
    simp only [reverseMem, List.getElem_map, List.getElem_range, List.getElem_reverse]
    rw [getElem!_pos l _ (by omega)]
    congr 1; omega

/-- **C18**, value conversions, both hosts and both signednesses, every width: the
stored bytes of `h_to_le x` are the little endian bytes of `x`, those of
`be_to_h x` (which is also `h_to_be x` where that exists) are the big endian bytes,
and both are self-inverse. -/
theorem C18_value_conversions (h : Host) (sgn : Bool) {n : Nat} (x : BitVec (8 * n)) :
    hostBytes h (hToLe h sgn x) = leBytes x ∧ hostBytes h (beToH h sgn x) = beBytes x ∧
    hToLe h sgn (hToLe h sgn x) = x ∧ beToH h sgn (beToH h sgn x) = x := by
  have inv : reverse sgn (reverse sgn x) = x := by
    apply BitVec.eq_of_getLsbD_eq
    intro p hp
    rw [reverse_bit _ _ _ hp, reverse_bit _ _ _ (by omega)]
    congr 1; omega
  have hb : beBytes (reverse sgn x) = leBytes x := by
    simp [beBytes, leBytes_reverse]
  cases h with
  | little => exact ⟨rfl, leBytes_reverse sgn x, rfl, inv⟩
  | big => exact ⟨hb, rfl, inv, rfl⟩

/-- **C18**, memory conversions: storing a host value writes its little / big endian
bytes, and loading (the same byte move) recovers the host representation. -/
theorem C18_memory_conversions (h : Host) {n : Nat} (x : BitVec (8 * n)) :
    stLe h (hostBytes h x) = leBytes x ∧ stBe h (hostBytes h x) = beBytes x ∧
    stLe h (stLe h (hostBytes h x)) = hostBytes h x ∧ stBe h (stBe h (hostBytes h x)) = hostBytes h x := by
  cases h <;> simp [stLe, stBe, hostBytes, reverseMem_eq, beBytes]

/-- The bytes determine the value: the round trips above recover the value itself. -/
theorem C18_bytes_injective {n : Nat} (x y : BitVec (8 * n)) (h : leBytes x = leBytes y) : x = y := by
  apply BitVec.eq_of_getLsbD_eq
  intro p hp
  have h1 : byte x (p / 8) = byte y (p / 8) := by
    have : (leBytes x)[p / 8]? = (leBytes y)[p / 8]? := by rw [h]
    have hk : p / 8 < n := by omega
    simpa [leBytes, hk] using this
  have h2 : x.extractLsb' (8 * (p / 8)) 8 = y.extractLsb' (8 * (p / 8)) 8 := by
    simpa [byte] using h1
  have h3 : (x.extractLsb' (8 * (p / 8)) 8).getLsbD (p % 8) = (y.extractLsb' (8 * (p / 8)) 8).getLsbD (p % 8) := by
    rw [h2]
  have h4 : p % 8 < 8 := by omega
  have h5 : 8 * (p / 8) + p % 8 = p := by omega
  rw [BitVec.getLsbD_extractLsb', BitVec.getLsbD_extractLsb', h5] at h3
  simpa [h4] using h3

/-- C18 is violated on big endian hosts: `aa_endconv_h_to_be_*` is not defined and
`aa_endconv_h_to_le_*` is defined twice (the header does not compile there). -/
theorem C18_violates_big_endian_api :
    (∀ f, f ∈ defined .little) ∧ (defined .little).Nodup ∧
    Fn.hToBe ∉ defined .big ∧ ¬ (defined .big).Nodup := by
  refine ⟨?_, by decide, by decide, by decide⟩
  intro f; cases f <;> decide

example : reverse (n := 4) true 0x80a1b2c3#32 = 0xc3b2a180#32 ∧
    leBytes (n := 4) 0x80a1b2c3#32 = [0xc3, 0xb2, 0xa1, 0x80] := by decide

end Verif.Endian
