import Verif.Model.Swap

/-! Property C13: memory swap. -/

namespace Verif.Swap

/-- Specification: memory with the ranges `[a+i,a+j)` and `[b+i,b+j)` exchanged. -/
def swapped (m : Mem) (a b i j : Nat) : Mem := fun x =>
  if a + i ≤ x ∧ x < a + j then m (b + (x - a))
  else if b + i ≤ x ∧ x < b + j then m (a + (x - b))
  else m x

theorem wloop_spec (a b k i : Nat) (m : Mem) (h : a + 8 * (i + k) ≤ b ∨ b + 8 * (i + k) ≤ a) :
    wloop a b k i m = swapped m a b (8 * i) (8 * (i + k)) := by
  induction k generalizing i m with
  | zero =>
    funext x
    simp only [wloop, swapped]
    rw [if_neg (by omega), if_neg (by omega)]
  | succ k ih =>
    simp only [wloop]
    rw [ih (i + 1) _ (by omega)]
    funext x
    simp only [swapped, storeW, loadW]
    grind

theorem bloop_spec (a b k i : Nat) (m : Mem) (h : a + (i + k) ≤ b ∨ b + (i + k) ≤ a) :
    bloop a b k i m = swapped m a b i (i + k) := by
  induction k generalizing i m with
  | zero =>
    funext x
    simp only [bloop, swapped]
    rw [if_neg (by omega), if_neg (by omega)]
  | succ k ih =>
    simp only [bloop]
    rw [ih (i + 1) _ (by omega)]
    funext x
    simp only [swapped, store]
    grind

/-- **C13**. For disjoint ranges (the arguments are `restrict`) and every length,
`aa_memswap` exchanges exactly the two ranges and changes no other byte. -/
theorem C13_memswap (m : Mem) (a b n : Nat) (h : a + n ≤ b ∨ b + n ≤ a) :
    (∀ i, i < n → memswap m a b n (a + i) = m (b + i) ∧ memswap m a b n (b + i) = m (a + i)) ∧
    ∀ x, ¬ (a ≤ x ∧ x < a + n) → ¬ (b ≤ x ∧ x < b + n) → memswap m a b n x = m x := by
  have e : memswap m a b n = swapped m a b 0 n := by
    simp only [memswap]
    rw [wloop_spec a b (n / 8) 0 m (by omega), bloop_spec _ _ _ _ _ (by omega)]
    funext x
    simp only [swapped]
    grind
  rw [e]
  refine ⟨fun i hi => ⟨?_, ?_⟩, fun x h1 h2 => ?_⟩
  · simp only [swapped]
    rw [if_pos (by omega)]; congr 1; omega
  · simp only [swapped]
    rw [if_neg (by omega), if_pos (by omega)]; congr 1; omega
  · simp only [swapped]
    rw [if_neg (by omega), if_neg (by omega)]

example : [9, 10, 20, 21, 39, 40, 50, 51].map (memswap (fun x => UInt8.ofNat x) 10 40 11) =
    [9, 40, 50, 21, 39, 10, 20, 51] := by decide

end Verif.Swap
