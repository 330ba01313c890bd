import Verif.Proof.Heap

/-! Properties C14, C15: array heaps. -/

namespace Verif.Heap

variable {α : Type}

/-- Specification: max-heap order of the first `n` entries: no child is greater
than its parent. -/
def IsHeap (le : α → α → Prop) (n : Nat) (f : Nat → α) : Prop :=
  ∀ p ch, (ch = 2 * p + 1 ∨ ch = 2 * p + 2) → ch < n → le (f ch) (f p)

theorem isHeap_iff {le : α → α → Prop} {n : Nat} {f : Nat → α} : IsHeap le n f ↔ ∀ j, At le n f j := by
  constructor
  · intro h j; exact ⟨h j _ (.inl rfl), h j _ (.inr rfl)⟩
  · rintro h p ch (rfl | rfl) hc
    · exact (h p).1 hc
    · exact (h p).2 hc

/-- **C14**, build: for every total preorder, array and length, `aa_aheap_build`
makes the first `n` entries a heap, permuting them and touching nothing else. -/
theorem C14_build (c : α → α → Int) (le : α → α → Prop) (hc : Cmp c le) (n : Nat) (f : Nat → α) :
    IsHeap le n (build c n f) ∧
    ((List.range n).map (build c n f)).Perm ((List.range n).map f) ∧
    ∀ j, n ≤ j → build c n f j = f j := by
  obtain ⟨h1, h2⟩ := build_spec hc n f
  exact ⟨isHeap_iff.2 h2, h1.perm, fun j hj => h1.ge hj⟩

/-- **C14**, sort: `aa_aheap_sort` leaves an ascending permutation of the input and
touches nothing else. -/
theorem C14_sort (c : α → α → Int) (le : α → α → Prop) (hc : Cmp c le) (n : Nat) (f : Nat → α) :
    ((List.range n).map (sort c n f)).Pairwise le ∧
    ((List.range n).map (sort c n f)).Perm ((List.range n).map f) ∧
    ∀ j, n ≤ j → sort c n f j = f j := by
  have key : Rearr n f (sort c n f) ∧ ∀ j k, j ≤ k → k < n → le (sort c n f j) (sort c n f k) := by
    unfold sort
    split
    · refine ⟨Rearr.refl _ _, fun j k hjk hk => ?_⟩
      obtain ⟨rfl, rfl⟩ : j = 0 ∧ k = 0 := by omega
      exact hc.rfl' _
    · obtain ⟨h1, h2⟩ := build_spec hc n f
      obtain ⟨h3, h4⟩ := sortFrom_spec hc n (build c n f) (n - 1) (by omega)
        (by rw [show n - 1 + 1 = n by omega]; exact h2) (fun j k _ _ _ => by omega) (fun j k _ _ _ => by omega)
      exact ⟨h1.trans h3, h4⟩
  refine ⟨?_, key.1.perm, fun j hj => key.1.ge hj⟩
  rw [List.pairwise_map]
  refine (List.Pairwise.and_mem.1 List.pairwise_lt_range).imp ?_
  rintro a b ⟨_, hb, hab⟩
  exact key.2 a b (by omega) (by simpa using hb)

/-- Integers with the usual comparison meet the hypothesis. -/
theorem cmpInt : Cmp (fun a b : Int => a - b) (· ≤ ·) :=
  ⟨fun a b => by omega, fun a b => by omega, fun a b d h1 h2 => by omega⟩

example : Cmp (fun a b : Int × Int => a.1 - b.1) (fun a b => a.1 ≤ b.1) :=
  ⟨fun a b => by omega, fun a b => by omega, fun a b d h1 h2 => by omega⟩

/-! ### C15 -/

theorem check_eq (c : α → α → Int) (n : Nat) (f : Nat → α) (i : Nat) :
    check c n f i =
      if 2 * i + 1 < n ∧ c (f i) (f (2 * i + 1)) < 0 then i
      else if 2 * i + 1 < n ∧ check c n f (2 * i + 1) ≠ 0 then check c n f (2 * i + 1)
      else if 2 * i + 2 < n ∧ c (f i) (f (2 * i + 2)) < 0 then i
      else if 2 * i + 2 < n then check c n f (2 * i + 2) else 0 := by
  rw [check]
  by_cases h : i < n
  · simp only [h, dif_pos]
    by_cases h1 : 2 * i + 1 < n <;> by_cases h2 : 2 * i + 2 < n <;> simp only [h1, h2, if_true, if_false, true_and, false_and] <;>
      grind
  · simp only [h, dif_neg, not_false_eq_true]
    rw [if_neg (by omega), if_neg (by omega), if_neg (by omega), if_neg (by omega)]

/-- C15 is violated: the invalid heap `[1, 2]` (root smaller than its child) gives
the same answer, 0, as the valid heap `[2, 1]`. -/
theorem C15_violates_root :
    check (fun a b : Int => a - b) 2 (fun i => if i = 0 then 1 else 2) 0 =
      check (fun a b : Int => a - b) 2 (fun i => if i = 0 then 2 else 1) 0 ∧
    IsHeap (· ≤ ·) 2 (fun i => if i = 0 then (2 : Int) else 1) ∧
    ¬ IsHeap (· ≤ ·) 2 (fun i => if i = 0 then (1 : Int) else 2) := by
  refine ⟨?_, ?_, ?_⟩
  · have h1 : ∀ f, check (fun a b : Int => a - b) 2 f 1 = 0 := by intro f; rw [check_eq]; simp
    rw [check_eq, check_eq (f := fun i => if i = 0 then 2 else 1)]; simp [h1]
  · rintro p ch (rfl | rfl) h
    · obtain rfl : p = 0 := by omega
      simp
    · omega
  · intro h
    have := h 0 1 (.inl rfl) (by omega)
    simp at this

/-- Descendants of `i` (including `i`) in heap numbering. -/
inductive Desc (i : Nat) : Nat → Prop where
  | refl : Desc i i
  | left (j) : Desc i j → Desc i (2 * j + 1)
  | right (j) : Desc i j → Desc i (2 * j + 2)

theorem Desc.head {i j : Nat} (h : Desc i j) : j = i ∨ Desc (2 * i + 1) j ∨ Desc (2 * i + 2) j := by
  induction h with
  | refl => exact .inl rfl
  | left j _ ih =>
    rcases ih with rfl | h | h
    · exact .inr (.inl .refl)
    · exact .inr (.inl (.left _ h))
    · exact .inr (.inr (.left _ h))
  | right j _ ih =>
    rcases ih with rfl | h | h
    · exact .inr (.inr .refl)
    · exact .inr (.inl (.right _ h))
    · exact .inr (.inr (.right _ h))

theorem desc_zero (j : Nat) : Desc 0 j := by
  induction j using Nat.strongRecOn with
  | ind j ih =>
    by_cases h0 : j = 0
    · subst h0; exact .refl
    · have := ih ((j - 1) / 2) (by omega)
      by_cases he : 2 * ((j - 1) / 2) + 1 = j
      · have h := Desc.left _ this; rwa [he] at h
      · have he : 2 * ((j - 1) / 2) + 2 = j := by omega
        have h := Desc.right _ this; rwa [he] at h

theorem Desc.ge {i j : Nat} (h : Desc i j) : i ≤ j := by
  induction h <;> omega

theorem check_sound {c : α → α → Int} {le} (hc : Cmp c le) (n : Nat) (f : Nat → α) (i : Nat)
    (h : check c n f i ≠ 0) : ¬ At le n f (check c n f i) := by
  induction hd : n - i using Nat.strongRecOn generalizing i with
  | ind d ih =>
    rw [check_eq] at h ⊢
    split
    · rename_i h1; exact fun ha => (hc.neg _ _).1 h1.2 (ha.1 h1.1)
    · rename_i h1
      rw [if_neg h1] at h
      split
      · rename_i h2; exact ih (n - (2 * i + 1)) (by omega) (2 * i + 1) h2.2 rfl
      · rename_i h2
        rw [if_neg h2] at h
        split
        · rename_i h3; exact fun ha => (hc.neg _ _).1 h3.2 (ha.2 h3.1)
        · rename_i h3
          rw [if_neg h3] at h
          split
          · rename_i h4
            rw [if_pos h4] at h
            exact ih (n - (2 * i + 2)) (by omega) (2 * i + 2) h rfl
          · rename_i h4; rw [if_neg h4] at h; exact absurd rfl h

theorem check_complete {c : α → α → Int} {le} (hc : Cmp c le) (n : Nat) (f : Nat → α) (i : Nat)
    (h : check c n f i = 0) (hi : i ≠ 0 ∨ At le n f i) : ∀ j, Desc i j → At le n f j := by
  induction hd : n - i using Nat.strongRecOn generalizing i with
  | ind d ih =>
    rw [check_eq] at h
    have hat : At le n f i ∧ (2 * i + 1 < n → check c n f (2 * i + 1) = 0) ∧
        (2 * i + 2 < n → check c n f (2 * i + 2) = 0) := by
      by_cases h1 : 2 * i + 1 < n ∧ c (f i) (f (2 * i + 1)) < 0
      · rw [if_pos h1] at h
        rcases hi with hi | hi
        · exact absurd h hi
        · exact absurd (hi.1 h1.1) ((hc.neg _ _).1 h1.2)
      · rw [if_neg h1] at h
        by_cases h2 : 2 * i + 1 < n ∧ check c n f (2 * i + 1) ≠ 0
        · rw [if_pos h2] at h; exact absurd h h2.2
        · rw [if_neg h2] at h
          by_cases h3 : 2 * i + 2 < n ∧ c (f i) (f (2 * i + 2)) < 0
          · rw [if_pos h3] at h
            rcases hi with hi | hi
            · exact absurd h hi
            · exact absurd (hi.2 h3.1) ((hc.neg _ _).1 h3.2)
          · rw [if_neg h3] at h
            refine ⟨⟨fun h' => hc.le_of_not fun h'' => h1 ⟨h', h''⟩, fun h' => hc.le_of_not fun h'' => h3 ⟨h', h''⟩⟩,
              fun h' => ?_, fun h' => ?_⟩
            · by_contra hne; exact h2 ⟨h', hne⟩
            · rwa [if_pos h'] at h
    intro j hj
    rcases hj.head with rfl | hj | hj
    · exact hat.1
    · by_cases hl : 2 * i + 1 < n
      · exact ih _ (by omega) _ (hat.2.1 hl) (.inl (by omega)) rfl j hj
      · have := hj.ge; exact ⟨fun h => by omega, fun h => by omega⟩
    · by_cases hl : 2 * i + 2 < n
      · exact ih _ (by omega) _ (hat.2.2 hl) (.inl (by omega)) rfl j hj
      · have := hj.ge; exact ⟨fun h => by omega, fun h => by omega⟩

/-- **C15 (partial)**. A nonzero answer of `aa_aheap_check` names a parent that is
less than one of its children; and provided the root is not itself such a parent,
the answer is 0 exactly when the array is a heap.
Missing: violations at the root (answer 0, see `C15_violates_root`). -/
theorem C15_check_partial (c : α → α → Int) (le : α → α → Prop) (hc : Cmp c le) (n : Nat) (f : Nat → α) :
    (∀ k, check c n f 0 = k → k ≠ 0 → ∃ ch, (ch = 2 * k + 1 ∨ ch = 2 * k + 2) ∧ ch < n ∧ ¬ le (f ch) (f k)) ∧
    ((∀ ch, (ch = 1 ∨ ch = 2) → ch < n → le (f ch) (f 0)) → (check c n f 0 = 0 ↔ IsHeap le n f)) := by
  constructor
  · rintro k rfl hk
    have h := check_sound hc n f 0 hk
    by_contra hn
    push Not at hn
    exact h ⟨fun h' => hn _ (.inl rfl) h', fun h' => hn _ (.inr rfl) h'⟩
  · intro hroot
    constructor
    · intro h
      have := check_complete hc n f 0 h (.inr ⟨fun h' => hroot 1 (.inl rfl) h', fun h' => hroot 2 (.inr rfl) h'⟩)
      exact isHeap_iff.2 fun j => this j (desc_zero j)
    · intro h
      by_contra hk
      exact check_sound hc n f 0 hk ((isHeap_iff.1 h) _)

/-- `[9, 5, 8, 6]`: the root is fine, node 1 is less than its child, and the answer is 1. -/
example : check (fun a b : Int => a - b) 4 (fun i => [9, 5, 8, 6].getD i 0) 0 = 1 := by
  rw [check_eq, check_eq]; simp

end Verif.Heap
