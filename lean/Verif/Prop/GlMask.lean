import Verif.Model.GlMask
import Verif.Prop.Bits

/-!
# C83: masked frames of a view
-/

namespace Verif.GlMask

open Verif.Bits

/-! ## Specification -/

/-- The value last given for a frame since everything was unmasked. -/
def spec : List Op → Nat → Bool :=
  fun os => os.foldl (fun m o =>
    match o with
    | .mask _ i v => fun k => if k = i then decide (v ≠ 0) else m k
    | .unmaskAll => fun _ => false) (fun _ => false)

/-- The frames that fit into the block allocated by the first call of a series, for frame `i`: the
next multiple of 32 that is at least `2 (i + 1)`. -/
def room (i : Nat) : Nat := (2 * (i + 1) + 31) / 32 * 32

/-- No call needs more room than the first one after a call of `aa_gl_globals_unmask_all` has
allocated; `cap` is the room there is. -/
def Roomy (cap : Nat) : List Op → Prop
  | [] => True
  | .unmaskAll :: os => Roomy 0 os
  | .mask _ i _ :: os => (cap = 0 ∨ i < cap) ∧ Roomy (if cap = 0 then room i else cap) os

/-! ## Lemmas -/

theorem words_eq (n : Nat) : words n = (n + 31) / 32 := by
  unfold words; dsimp only; split <;> omega

theorem size_eq (n : Nat) : Bits.size n = (n + 31) / 32 * 4 := by rw [Bits.size, words_eq]

/-- The state holds the set. -/
structure Inv (s : St) (cap : Nat) (m : Nat → Bool) : Prop where
  size : s.size = s.mask.size * 4
  cap : cap = s.mask.size * 32
  mem : ∀ i, Bits.mem s.mask i ↔ m i = true

theorem inv_create : Inv create 0 (fun _ => false) :=
  ⟨rfl, rfl, fun i => by simp [Bits.mem, create]⟩

theorem isMasked_eq {s : St} {cap : Nat} {m : Nat → Bool} (h : Inv s cap m) (i : Nat) :
    ∃ r, isMasked s i = some r ∧ (r ≠ 0 ↔ m i = true) := by
  unfold isMasked getn
  by_cases hi : Bits.size (i + 1) > s.size
  · rw [if_pos hi]
    refine ⟨0, rfl, ?_⟩
    rw [← h.mem]
    simp only [ne_eq, not_true_eq_false, false_iff]
    rintro ⟨w, hw, -⟩
    have := (Array.getElem?_eq_some_iff.1 hw).1
    rw [size_eq, h.size] at hi
    omega
  · rw [if_neg hi]
    rw [size_eq, h.size] at hi
    obtain ⟨r, h1, h2, h3⟩ := C11_get s.mask (i + 1) i (by rw [words_eq]; omega) (by omega)
    refine ⟨r, h1, ?_⟩
    rw [← h.mem, ne_eq, h3, Classical.not_not]

theorem set_inv {s : St} {cap : Nat} {m : Nat → Bool} (h : Inv s cap m) (i : Nat) (v : Int)
    (hi : i < cap) : ∃ a, Bits.set s.mask i v = some a ∧
      Inv ⟨a, s.size⟩ cap (fun k => if k = i then decide (v ≠ 0) else m k) := by
  obtain ⟨a, h1, h2, h3, h4⟩ := C11_set s.mask (i + 1) i v
    (by rw [words_eq]; have := h.cap; omega) (by omega)
  refine ⟨a, h1, by rw [h2, h.size], by rw [h2, h.cap], fun k => ?_⟩
  by_cases hk : k = i
  · subst hk
    rw [h3]
    simp
  · rw [h4 k hk, h.mem, if_neg hk]

theorem mask_inv {s : St} {cap : Nat} {m : Nat → Bool} (h : Inv s cap m) (junk : Nat → Word)
    (i : Nat) (v : Int) (hi : cap = 0 ∨ i < cap) :
    ∃ s', mask s junk i v = some s' ∧ Inv s' (if cap = 0 then room i else cap)
      (fun k => if k = i then decide (v ≠ 0) else m k) := by
  by_cases hc : cap = 0
  · subst hc
    have h0 : s.mask.size = 0 := by have := h.cap; omega
    have hs0 : s.size = 0 := by rw [h.size, h0]
    have hm : ∀ k, m k = false := by
      intro k
      cases hk : m k with
      | false => rfl
      | true =>
        obtain ⟨w, hw, -⟩ := (h.mem k).2 hk
        have := (Array.getElem?_eq_some_iff.1 hw).1
        omega
    have hw : Bits.size (2 * (i + 1)) = (2 * (i + 1) + 31) / 32 * 4 := size_eq _
    obtain ⟨N, hN⟩ : ∃ N, N = (2 * (i + 1) + 31) / 32 := ⟨_, rfl⟩
    rw [← hN] at hw
    obtain ⟨a0, ha0⟩ : ∃ a, a = realloc s.mask (Bits.size (2 * (i + 1))) junk := ⟨_, rfl⟩
    have hsz : a0.size = N := by
      rw [ha0, realloc, Array.size_ofFn, hw]; omega
    have hms : ∃ a1, memset0 a0 0 (N * 4) = some a1 ∧ a1.size = N ∧ ∀ k, ¬ Bits.mem a1 k := by
      unfold memset0
      rw [if_pos (by omega)]
      refine ⟨_, rfl, by rw [Array.size_ofFn, hsz], ?_⟩
      rintro k ⟨w, hw, hb⟩
      obtain ⟨hlt, hw⟩ := Array.getElem?_eq_some_iff.1 hw
      rw [Array.size_ofFn] at hlt
      rw [Array.getElem_ofFn, if_pos ⟨Nat.zero_le _, by omega⟩] at hw
      rw [← hw] at hb
      simp at hb
    obtain ⟨a1, e1, e2, e3⟩ := hms
    have inv1 : Inv ⟨a1, N * 4⟩ (N * 32) m :=
      ⟨by rw [e2], by rw [e2], fun k => by rw [hm k]; simp [e3 k]⟩
    obtain ⟨a2, f1, f2⟩ := set_inv inv1 i v (by omega)
    refine ⟨⟨a2, N * 4⟩, ?_, ?_⟩
    · unfold mask
      have hg : Bits.size (i + 1) > s.size := by rw [size_eq, hs0]; omega
      dsimp only
      rw [if_pos hg, ← ha0, hs0, hw, Nat.sub_zero, e1]
      simp only [Option.map_some, f1]
    · rw [if_pos rfl]
      have : room i = N * 32 := by rw [room, hN]
      rw [this]
      exact f2
  · have hi' := hi.resolve_left hc
    rw [if_neg hc]
    obtain ⟨a, f1, f2⟩ := set_inv h i v hi'
    refine ⟨⟨a, s.size⟩, ?_, f2⟩
    unfold mask
    have hg : ¬ Bits.size (i + 1) > s.size := by
      rw [size_eq, h.size]; have := h.cap; omega
    dsimp only
    rw [if_neg hg]
    simp only [f1, Option.map_some]

theorem run_inv (os : List Op) (s : St) (cap : Nat) (m : Nat → Bool) (h : Inv s cap m)
    (hr : Roomy cap os) : ∃ s' cap', run s os = some s' ∧ Inv s' cap'
      (os.foldl (fun m o =>
        match o with
        | .mask _ i v => fun k => if k = i then decide (v ≠ 0) else m k
        | .unmaskAll => fun _ => false) m) := by
  induction os generalizing s cap m with
  | nil => exact ⟨s, cap, rfl, h⟩
  | cons o os ih =>
    cases o with
    | unmaskAll =>
      obtain ⟨s', cap', e1, e2⟩ := ih create 0 (fun _ => false) inv_create hr
      exact ⟨s', cap', e1, e2⟩
    | mask junk i v =>
      obtain ⟨s1, e1, e2⟩ := mask_inv h junk i v hr.1
      obtain ⟨s', cap', k1, k2⟩ := ih s1 _ _ e2 hr.2
      exact ⟨s', cap', by simp only [run, step, e1, k1], k2⟩

/-! ## Theorems -/

/-- **C83** for the histories in which no call needs more room than the first one has allocated: all
calls are defined and every frame is masked exactly if the last value given for it since everything
was unmasked is nonzero, whatever the contents of new memory.  Missing: a second growth of the set
(`C83_violates_grow`). -/
theorem C83_mask_partial (os : List Op) (h : Roomy 0 os) :
    ∃ s, run create os = some s ∧ ∀ i, ∃ r, isMasked s i = some r ∧ (r ≠ 0 ↔ spec os i = true) := by
  obtain ⟨s, cap, h1, h2⟩ := run_inv os create 0 _ inv_create h
  exact ⟨s, h1, fun i => isMasked_eq h2 i⟩

/-- **C83 fails** whenever the set has to grow a second time: for every first frame `i` and every later
frame `k` that does not fit, clearing the new part writes beyond the block. -/
theorem C83_violates_grow (junk : Nat → Word) (i k : Nat) (v u : Int) (h : room i ≤ k) :
    (∃ s, run create [.mask junk i v] = some s) ∧
      run create [.mask junk i v, .mask junk k u] = none := by
  obtain ⟨s1, e1, e2⟩ := mask_inv inv_create junk i v (Or.inl rfl)
  rw [if_pos rfl] at e2
  refine ⟨⟨s1, by simp [run, step, e1]⟩, ?_⟩
  simp only [run, step, e1]
  have hcap := e2.cap
  have hsz := e2.size
  have hpos : 0 < s1.mask.size := by unfold room at hcap; omega
  have hg : Bits.size (k + 1) > s1.size := by rw [size_eq, hsz]; omega
  have : mask s1 junk k u = none := by
    unfold mask
    dsimp only
    rw [if_pos hg]
    unfold memset0
    rw [if_neg]
    · rfl
    · rw [realloc, Array.size_ofFn, size_eq, hsz]; omega
  rw [this]

/-- A history that meets the hypotheses of `C83_mask_partial`, with garbage in the new memory. -/
example : Roomy 0 [.mask (fun _ => 5) 20 1, .mask (fun _ => 7) 63 1, .mask (fun _ => 0) 20 0,
    .unmaskAll, .mask (fun _ => 9) 100 1] := by
  refine ⟨Or.inl rfl, Or.inr ?_, Or.inr ?_, Or.inl rfl, trivial⟩ <;> decide

example : ((run create [.mask (fun _ => 5) 20 1, .mask (fun _ => 7) 63 1, .mask (fun _ => 0) 20 0]).map
    (fun s => [20, 63, 62, 64, 1000].map (isMasked s))) =
    some [some 0, some 1, some 0, some 0, some 0] := by decide +kernel

/-- The smallest case of `C83_violates_grow`: frame 0, then frame 32. -/
example : room 0 ≤ 32 := by decide

end Verif.GlMask
