import Verif.Model.Heap
import Mathlib.Logic.Equiv.Basic

namespace Verif.Heap

variable {α : Type}

/-- A comparison function of a total preorder `le`, in the sense of `qsort`. -/
structure Cmp (c : α → α → Int) (le : α → α → Prop) : Prop where
  neg : ∀ a b, c a b < 0 ↔ ¬ le b a
  total : ∀ a b, le a b ∨ le b a
  trans : ∀ a b d, le a b → le b d → le a d

/-- `g` is `f` with the first `n` entries rearranged. -/
def Rearr (n : Nat) (f g : Nat → α) : Prop :=
  ∃ σ : Equiv.Perm Nat, (∀ j, n ≤ j → σ j = j) ∧ ∀ j, g j = f (σ j)

theorem Rearr.refl (n : Nat) (f : Nat → α) : Rearr n f f := ⟨Equiv.refl _, fun _ _ => rfl, fun _ => rfl⟩

theorem Rearr.trans {n : Nat} {f g h : Nat → α} (h1 : Rearr n f g) (h2 : Rearr n g h) : Rearr n f h := by
  obtain ⟨σ, s1, s2⟩ := h1
  obtain ⟨τ, t1, t2⟩ := h2
  refine ⟨τ.trans σ, fun j hj => ?_, fun j => ?_⟩
  · simp [t1 j hj, s1 j hj]
  · simp [t2, s2]

theorem Rearr.mono {n m : Nat} {f g : Nat → α} (h : Rearr n f g) (hnm : n ≤ m) : Rearr m f g := by
  obtain ⟨σ, s1, s2⟩ := h
  exact ⟨σ, fun j hj => s1 j (by omega), s2⟩

theorem Rearr.lt {n : Nat} {σ : Equiv.Perm Nat} (h : ∀ j, n ≤ j → σ j = j) {j : Nat} (hj : j < n) : σ j < n := by
  by_contra hc
  have h1 := h (σ j) (by omega)
  have := σ.injective h1
  omega

theorem Rearr.mem {n : Nat} {f g : Nat → α} (h : Rearr n f g) {j : Nat} (hj : j < n) : ∃ k, k < n ∧ g j = f k := by
  obtain ⟨σ, s1, s2⟩ := h
  exact ⟨σ j, Rearr.lt s1 hj, s2 j⟩

theorem Rearr.ge {n : Nat} {f g : Nat → α} (h : Rearr n f g) {j : Nat} (hj : n ≤ j) : g j = f j := by
  obtain ⟨σ, s1, s2⟩ := h
  rw [s2, s1 j hj]

theorem rearr_swap {n i j : Nat} (f : Nat → α) (hi : i < n) (hj : j < n) : Rearr n f (swap f i j) := by
  refine ⟨Equiv.swap i j, fun k hk => ?_, fun k => ?_⟩
  · exact Equiv.swap_apply_of_ne_of_ne (by omega) (by omega)
  · simp only [swap, Equiv.swap_apply_def]
    split
    · rfl
    · split <;> rfl

theorem Rearr.perm {n : Nat} {f g : Nat → α} (h : Rearr n f g) :
    ((List.range n).map g).Perm ((List.range n).map f) := by
  obtain ⟨σ, s1, s2⟩ := h
  have h1 : (List.range n).map g = ((List.range n).map σ).map f := by
    simp [List.map_map, Function.comp_def, s2]
  rw [h1]
  refine List.Perm.map f ?_
  have hnd : ((List.range n).map σ).Nodup := List.Pairwise.map σ (fun a b hab he => hab (σ.injective he)) List.nodup_range
  rw [List.perm_ext_iff_of_nodup hnd List.nodup_range]
  intro a
  simp only [List.mem_map, List.mem_range]
  constructor
  · rintro ⟨b, hb, rfl⟩; exact Rearr.lt s1 hb
  · intro ha
    refine ⟨σ.symm a, ?_, by simp⟩
    by_contra hc
    have := s1 (σ.symm a) (by omega)
    simp at this
    omega

/-- Heap order at node `j`. -/
def At (le : α → α → Prop) (n : Nat) (f : Nat → α) (j : Nat) : Prop :=
  (2 * j + 1 < n → le (f (2 * j + 1)) (f j)) ∧ (2 * j + 2 < n → le (f (2 * j + 2)) (f j))

theorem Cmp.le_of_not {c : α → α → Int} {le} (hc : Cmp c le) {a b : α} (h : ¬ c a b < 0) : le b a := by
  by_contra hn; exact h ((hc.neg a b).2 hn)

theorem Cmp.le_of_lt {c : α → α → Int} {le} (hc : Cmp c le) {a b : α} (h : c a b < 0) : le a b :=
  (hc.total a b).resolve_right ((hc.neg a b).1 h)

theorem Cmp.rfl' {c : α → α → Int} {le} (hc : Cmp c le) (a : α) : le a a := (hc.total a a).elim id id

theorem top_spec {c : α → α → Int} {le} (hc : Cmp c le) (n : Nat) (f : Nat → α) (i : Nat) :
    (top c n f i = i ∧ At le n f i) ∨
    ((top c n f i = 2 * i + 1 ∨ top c n f i = 2 * i + 2) ∧ top c n f i < n ∧
      le (f i) (f (top c n f i)) ∧
      (2 * i + 1 < n → le (f (2 * i + 1)) (f (top c n f i))) ∧
      (2 * i + 2 < n → le (f (2 * i + 2)) (f (top c n f i)))) := by
  simp only [top]
  by_cases h1 : 2 * i + 1 < n ∧ c (f i) (f (2 * i + 1)) < 0
  · simp only [gt_iff_lt, h1, and_self, if_true]
    by_cases h2 : 2 * i + 1 + 1 < n ∧ c (f (2 * i + 1)) (f (2 * i + 1 + 1)) < 0
    · simp only [h2, and_self, if_true]
      right
      refine ⟨by simp, by first | exact h2.1 | trivial, ?_, fun _ => hc.le_of_lt h2.2, fun _ => hc.rfl' _⟩
      exact hc.trans _ _ _ (hc.le_of_lt h1.2) (hc.le_of_lt h2.2)
    · simp only [h2, if_false]
      right
      refine ⟨by simp, by first | exact h1.1 | trivial, hc.le_of_lt h1.2, fun _ => hc.rfl' _, fun h => ?_⟩
      exact hc.le_of_not (fun h3 => h2 ⟨h, h3⟩)
  · simp only [gt_iff_lt, h1, if_false]
    by_cases h2 : 2 * i + 1 + 1 < n ∧ c (f i) (f (2 * i + 1 + 1)) < 0
    · simp only [h2, and_self, if_true]
      right
      refine ⟨by simp, by first | exact h2.1 | trivial, hc.le_of_lt h2.2, fun h => ?_, fun _ => hc.rfl' _⟩
      have : le (f (2 * i + 1)) (f i) := hc.le_of_not (fun h3 => h1 ⟨h, h3⟩)
      exact hc.trans _ _ _ this (hc.le_of_lt h2.2)
    · simp only [h2, if_false]
      left
      exact ⟨by trivial, fun h => hc.le_of_not (fun h3 => h1 ⟨h, h3⟩), fun h => hc.le_of_not (fun h3 => h2 ⟨h, h3⟩)⟩

theorem heapify_spec {c : α → α → Int} {le} (hc : Cmp c le) (n k : Nat) (f : Nat → α) (i : Nat) (hk : k ≤ i)
    (hat : ∀ j, k ≤ j → j ≠ i → At le n f j)
    (hgp : ∀ p, k ≤ p → (i = 2 * p + 1 ∨ i = 2 * p + 2) →
      (2 * i + 1 < n → le (f (2 * i + 1)) (f p)) ∧ (2 * i + 2 < n → le (f (2 * i + 2)) (f p))) :
    Rearr n f (heapify c n f i) ∧ ∀ j, k ≤ j → At le n (heapify c n f i) j := by
  induction hd : n - i using Nat.strongRecOn generalizing f i with
  | ind d ih =>
    rw [heapify]
    rcases top_spec hc n f i with ⟨h1, h2⟩ | ⟨h1, h2, h3, h4, h5⟩
    · rw [dif_neg (by simp [h1])]
      refine ⟨Rearr.refl _ _, fun j hj => ?_⟩
      by_cases hji : j = i
      · subst hji; exact h2
      · exact hat j hj hji
    · have hne : top c n f i ≠ i := by omega
      rw [dif_pos hne]
      generalize top c n f i = t at *
      have hlt : i < n := by omega
      refine And.imp (rearr_swap f hlt h2).trans id (ih (n - t) (by omega) (swap f i t) t (by omega) ?_ ?_ rfl)
      · intro j hj hjt
        by_cases hji : j = i
        · subst hji
          have e : swap f j t j = f t := by simp [swap]
          constructor
          · intro hlt'
            rw [e]
            by_cases he : 2 * j + 1 = t
            · have : swap f j t (2 * j + 1) = f j := by rw [he]; simp [swap, hne]
              rw [this]; exact h3
            · have : swap f j t (2 * j + 1) = f (2 * j + 1) := by
                simp only [swap]; rw [if_neg (by omega), if_neg he]
              rw [this]; exact h4 hlt'
          · intro hlt'
            rw [e]
            by_cases he : 2 * j + 2 = t
            · have : swap f j t (2 * j + 2) = f j := by rw [he]; simp [swap, hne]
              rw [this]; exact h3
            · have : swap f j t (2 * j + 2) = f (2 * j + 2) := by
                simp only [swap]; rw [if_neg (by omega), if_neg he]
              rw [this]; exact h5 hlt'
        · have ej : swap f i t j = f j := by simp [swap, hji, hjt]
          have hA := hat j hj hji
          have hG := hgp j hj
          constructor
          · intro hlt'
            rw [ej]
            by_cases he : 2 * j + 1 = i
            · have : swap f i t (2 * j + 1) = f t := by simp [swap, he]
              rw [this]
              have hG' := hG (.inl he.symm)
              rcases h1 with rfl | rfl
              · exact hG'.1 h2
              · exact hG'.2 h2
            · have : swap f i t (2 * j + 1) = f (2 * j + 1) := by
                simp only [swap]; rw [if_neg he, if_neg (by omega)]
              rw [this]; exact hA.1 hlt'
          · intro hlt'
            rw [ej]
            by_cases he : 2 * j + 2 = i
            · have : swap f i t (2 * j + 2) = f t := by simp [swap, he]
              rw [this]
              have hG' := hG (.inr he.symm)
              rcases h1 with rfl | rfl
              · exact hG'.1 h2
              · exact hG'.2 h2
            · have : swap f i t (2 * j + 2) = f (2 * j + 2) := by
                simp only [swap]; rw [if_neg he, if_neg (by omega)]
              rw [this]; exact hA.2 hlt'
      · intro p hp hpt
        have hpi : p = i := by omega
        subst hpi
        have e : swap f p t p = f t := by simp [swap]
        have hA := hat t (by omega) hne
        rw [e]
        constructor
        · intro hlt'
          have : swap f p t (2 * t + 1) = f (2 * t + 1) := by
            simp only [swap]; rw [if_neg (by omega), if_neg (by omega)]
          rw [this]; exact hA.1 hlt'
        · intro hlt'
          have : swap f p t (2 * t + 2) = f (2 * t + 2) := by
            simp only [swap]; rw [if_neg (by omega), if_neg (by omega)]
          rw [this]; exact hA.2 hlt'

theorem buildFrom_spec {c : α → α → Int} {le} (hc : Cmp c le) (n : Nat) (f : Nat → α) (i : Nat)
    (hat : ∀ j, i < j → At le n f j) :
    Rearr n f (buildFrom c n f i) ∧ ∀ j, At le n (buildFrom c n f i) j := by
  induction i generalizing f with
  | zero =>
    obtain ⟨h1, h2⟩ := heapify_spec hc n 0 f 0 (Nat.le_refl _) (fun j _ hj => hat j (by omega))
      (fun p _ hp => by omega)
    exact ⟨h1, fun j => h2 j (Nat.zero_le _)⟩
  | succ i ih =>
    obtain ⟨h1, h2⟩ := heapify_spec hc n (i + 1) f (i + 1) (Nat.le_refl _)
      (fun j hj hj' => hat j (by omega)) (fun p hp hp' => by omega)
    obtain ⟨h3, h4⟩ := ih (heapify c n f (i + 1)) (fun j hj => h2 j (by omega))
    exact ⟨h1.trans h3, h4⟩

theorem build_spec {c : α → α → Int} {le} (hc : Cmp c le) (n : Nat) (f : Nat → α) :
    Rearr n f (build c n f) ∧ ∀ j, At le n (build c n f) j :=
  buildFrom_spec hc n f (n / 2) (fun j hj => ⟨fun h => by omega, fun h => by omega⟩)

theorem root_max {c : α → α → Int} {le} (hc : Cmp c le) {n : Nat} {f : Nat → α} (h : ∀ j, At le n f j)
    (j : Nat) (hj : j < n) : le (f j) (f 0) := by
  induction j using Nat.strongRecOn with
  | ind j ih =>
    by_cases h0 : j = 0
    · subst h0; exact hc.rfl' _
    · have hp := ih ((j - 1) / 2) (by omega) (by omega)
      refine hc.trans _ _ _ ?_ hp
      by_cases he : 2 * ((j - 1) / 2) + 1 = j
      · have := (h ((j - 1) / 2)).1; rw [he] at this; exact this hj
      · have he : 2 * ((j - 1) / 2) + 2 = j := by omega
        have := (h ((j - 1) / 2)).2; rw [he] at this; exact this hj

theorem sortFrom_spec {c : α → α → Int} {le} (hc : Cmp c le) (n : Nat) (f : Nat → α) (i : Nat) (hi : i < n)
    (hheap : ∀ j, At le (i + 1) f j)
    (hsorted : ∀ j k, i < j → j ≤ k → k < n → le (f j) (f k))
    (hsplit : ∀ j k, j ≤ i → i < k → k < n → le (f j) (f k)) :
    Rearr n f (sortFrom c f i) ∧ ∀ j k, j ≤ k → k < n → le (sortFrom c f i j) (sortFrom c f i k) := by
  induction i generalizing f with
  | zero =>
    refine ⟨Rearr.refl _ _, fun j k hjk hk => ?_⟩
    show le (f j) (f k)
    by_cases hj : j = 0
    · by_cases hk0 : k = 0
      · subst hj hk0; exact hc.rfl' _
      · exact hsplit j k (by omega) (by omega) hk
    · exact hsorted j k (by omega) hjk hk
  | succ i ih =>
    have hmax := root_max hc hheap
    have hsw : ∀ j, j ≤ i + 1 → ∃ k, k ≤ i + 1 ∧ swap f 0 (i + 1) j = f k := by
      intro j hj
      obtain ⟨k, hk, he⟩ := (rearr_swap (n := i + 2) f (show 0 < i + 2 by omega) (show i + 1 < i + 2 by omega)).mem
        (show j < i + 2 by omega)
      exact ⟨k, by omega, he⟩
    have hsi : swap f 0 (i + 1) (i + 1) = f 0 := by simp [swap]
    have hsg : ∀ k, i + 1 < k → swap f 0 (i + 1) k = f k := by
      intro k hk; simp only [swap]; rw [if_neg (by omega), if_neg (by omega)]
    obtain ⟨h1, h2⟩ := heapify_spec hc (i + 1) 0 (swap f 0 (i + 1)) 0 (Nat.le_refl _)
      (by
        intro j _ hj
        have ej : ∀ m, m ≠ 0 → m < i + 1 → swap f 0 (i + 1) m = f m := by
          intro m hm hm'; simp only [swap]; rw [if_neg hm, if_neg (by omega)]
        refine ⟨fun h => ?_, fun h => ?_⟩
        · rw [ej _ (by omega) h, ej j hj (by omega)]; exact (hheap j).1 (by omega)
        · rw [ej _ (by omega) h, ej j hj (by omega)]; exact (hheap j).2 (by omega))
      (fun p _ hp => by omega)
    obtain ⟨h3, h4⟩ := ih (heapify c (i + 1) (swap f 0 (i + 1)) 0) (by omega) (fun j => h2 j (Nat.zero_le _))
      (by
        intro j k hj hjk hk
        rw [h1.ge (by omega), h1.ge (by omega)]
        by_cases hje : j = i + 1
        · subst hje
          rw [hsi]
          by_cases hke : k = i + 1
          · subst hke; rw [hsi]; exact hc.rfl' _
          · rw [hsg k (by omega)]; exact hsplit 0 k (by omega) (by omega) hk
        · rw [hsg j (by omega), hsg k (by omega)]
          exact hsorted j k (by omega) hjk hk)
      (by
        intro j k hj hk hkn
        rw [h1.ge (j := k) (by omega)]
        obtain ⟨m, hm, he⟩ := h1.mem (show j < i + 1 by omega)
        obtain ⟨m', hm', he'⟩ := hsw m (by omega)
        rw [he, he']
        by_cases hke : k = i + 1
        · subst hke; rw [hsi]; exact hmax m' (by omega)
        · rw [hsg k (by omega)]; exact hsplit m' k hm' (by omega) hkn)
    refine ⟨?_, h4⟩
    exact ((rearr_swap f (by omega) hi).trans (h1.mono (by omega))).trans h3

end Verif.Heap
