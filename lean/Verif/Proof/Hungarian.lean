import Verif.Model.Hungarian
import Mathlib.Tactic.Linarith
import Mathlib.Tactic.Ring
import Mathlib.Tactic.Set
import Mathlib.Algebra.Order.BigOperators.Group.Finset
import Mathlib.Data.Fintype.EquivFin
import Mathlib.Algebra.BigOperators.Group.Finset.Basic

namespace Verif.Hungarian

variable {K : Type} [CommRing K] [LinearOrder K] {n : Nat}

omit [CommRing K] in
theorem foldmin_le {ι : Type} (f : ι → K) (l : List ι) (a : K) :
    l.foldl (fun x i => if f i < x then f i else x) a ≤ a ∧
    ∀ i ∈ l, l.foldl (fun x i => if f i < x then f i else x) a ≤ f i := by
  induction l generalizing a with
  | nil => simp
  | cons b l ih =>
    simp only [List.foldl_cons, List.mem_cons]
    obtain ⟨h1, h2⟩ := ih (if f b < a then f b else a)
    have h3 : (if f b < a then f b else a) ≤ a ∧ (if f b < a then f b else a) ≤ f b := by
      split
      · exact ⟨le_of_lt ‹_›, le_refl _⟩
      · exact ⟨le_refl _, not_lt.1 ‹_›⟩
    refine ⟨h1.trans h3.1, ?_⟩
    rintro i (rfl | hi)
    · exact h1.trans h3.2
    · exact h2 i hi

omit [CommRing K] in
theorem minVal_le (f : Fin n → K) (h : 0 < n) (i : Fin n) : minVal f h ≤ f i :=
  (foldmin_le f (List.finRange n) _).2 i (List.mem_finRange i)

omit [CommRing K] in
theorem foldmax_ge {ι : Type} (f : ι → K) (l : List ι) (a : K) :
    a ≤ l.foldl (fun x i => if f i > x then f i else x) a ∧
    ∀ i ∈ l, f i ≤ l.foldl (fun x i => if f i > x then f i else x) a := by
  have := foldmin_le (K := Kᵒᵈ) (fun i => OrderDual.toDual (f i)) l (OrderDual.toDual a)
  exact this

theorem matMax_ge {m n : Nat} (A : Fin m → Fin n → K) (i : Fin m) (j : Fin n) : A i j ≤ matMax A := by
  unfold matMax
  rw [dif_pos ⟨i.pos, j.pos⟩]
  have key : ∀ (l : List (Fin m)) (a : K),
      a ≤ l.foldl (fun x i => (List.finRange n).foldl (fun x j => if A i j > x then A i j else x) x) a ∧
      ∀ i ∈ l, A i j ≤
        l.foldl (fun x i => (List.finRange n).foldl (fun x j => if A i j > x then A i j else x) x) a := by
    intro l
    induction l with
    | nil => simp
    | cons b l ih =>
      intro a
      simp only [List.foldl_cons, List.mem_cons]
      obtain ⟨h1, h2⟩ := ih ((List.finRange n).foldl (fun x j => if A b j > x then A b j else x) a)
      obtain ⟨h3, h4⟩ := foldmax_ge (A b) (List.finRange n) a
      refine ⟨h3.trans h1, ?_⟩
      rintro i (rfl | hi)
      · exact (h4 j (List.mem_finRange j)).trans h1
      · exact h2 i hi
  exact (key _ _).2 i (List.mem_finRange i)

theorem mem_cells (p : Fin n × Fin n) : p ∈ cells n := by
  simp only [cells, List.mem_flatMap, List.mem_map]
  exact ⟨p.2, List.mem_finRange _, p.1, List.mem_finRange _, rfl⟩

omit [CommRing K] in
theorem minval_spec (mx : K) (s : St K n) :
    minval mx s ≤ mx ∧
    (∀ i j, s.rc i = false → s.cc j = false → minval mx s ≤ s.A i j) ∧
    (minval mx s = mx ∨ ∃ i j, s.rc i = false ∧ s.cc j = false ∧ minval mx s = s.A i j) := by
  have key : ∀ (l : List (Fin n × Fin n)) (a : K),
      let r := l.foldl (fun v p => if !s.rc p.1 && !s.cc p.2 && decide (s.A p.1 p.2 < v) then s.A p.1 p.2 else v) a
      r ≤ a ∧ (∀ p ∈ l, s.rc p.1 = false → s.cc p.2 = false → r ≤ s.A p.1 p.2) ∧
      (r = a ∨ ∃ i j, s.rc i = false ∧ s.cc j = false ∧ r = s.A i j) := by
    intro l
    induction l with
    | nil => simp
    | cons p l ih =>
      intro a
      simp only [List.foldl_cons]
      by_cases h : (!s.rc p.1 && !s.cc p.2 && decide (s.A p.1 p.2 < a)) = true
      · rw [if_pos h]
        simp only [Bool.and_eq_true, Bool.not_eq_true', decide_eq_true_eq] at h
        obtain ⟨h1, h2, h3⟩ := ih (s.A p.1 p.2)
        refine ⟨h1.trans h.2.le, ?_, Or.inr ?_⟩
        · intro q hq
          rcases List.mem_cons.1 hq with rfl | hq
          · intro _ _; exact h1
          · exact h2 q hq
        · rcases h3 with h3 | h3
          · exact ⟨_, _, h.1.1, h.1.2, h3⟩
          · exact h3
      · rw [if_neg h]
        simp only [Bool.and_eq_true, Bool.not_eq_true', decide_eq_true_eq, not_and, not_lt] at h
        obtain ⟨h1, h2, h3⟩ := ih a
        refine ⟨h1, ?_, h3⟩
        intro q hq
        rcases List.mem_cons.1 hq with rfl | hq
        · intro ha hb; exact h1.trans (h ⟨ha, hb⟩)
        · exact h2 q hq
  obtain ⟨h1, h2, h3⟩ := key (cells n) mx
  exact ⟨h1, fun i j => h2 (i, j) (mem_cells _), h3⟩

/-- The facts that hold before every turn of the loop. -/
structure Good (C : Fin n → Fin n → K) (s : St K n) : Prop where
  pot : ∃ u v : Fin n → K, ∀ i j, s.A i j = C i j - u i - v j
  nn : ∀ i j, 0 ≤ s.A i j
  zero : ∀ i j, s.mask i j ≠ 0 → s.A i j ≤ 0
  row : ∀ i j k, s.mask i j = 1 → s.mask i k = 1 → j = k
  le2 : ∀ i j, s.mask i j ≤ 2
  at3 : s.step = 3 → (∀ i, s.rc i = false) ∧ (∀ i, s.cc i = false) ∧ ∀ i j, s.mask i j ≠ 2
  cov : s.step = 4 ∨ s.step = 6 → (∀ i k, s.mask i k = 1 → s.rc i = true → s.cc k = false) ∧
    ∀ i j, s.mask i j = 2 → s.rc i = true ∧ s.cc j = false
  at5 : s.step = 5 → ∃ z, s.z = some z ∧ s.mask z.1 z.2 = 2 ∧ ∀ k, s.mask z.1 k ≠ 1
  at6 : s.step = 6 → ∀ i j, s.rc i = false → s.cc j = false → 0 < s.A i j
  steps : s.step = 3 ∨ s.step = 4 ∨ s.step = 5 ∨ s.step = 6 ∨ s.step = 7
  done : s.step = 7 → ∀ j, ∃ i, s.mask i j = 1

/-- No way out: a nonpositive `max_cost` and no uncovered zero. -/
structure Stuck (mx : K) (s : St K n) : Prop where
  neg : mx ≤ 0
  at46 : s.step = 4 ∨ s.step = 6
  unc : ∀ i j, s.rc i = false → s.cc j = false → 0 < s.A i j

variable [IsStrictOrderedRing K]

theorem stuck_next (mx : K) (s : St K n) (h : Stuck mx s) : Stuck mx (next mx s) := by
  obtain ⟨h0, h1, h2⟩ := h
  rcases h1 with h1 | h1
  · have hf : (cells n).find? (fun p => decide (s.A p.1 p.2 ≤ 0) && !s.rc p.1 && !s.cc p.2) = none := by
      rw [List.find?_eq_none]
      intro p _
      simp only [Bool.and_eq_true, Bool.not_eq_true', decide_eq_true_eq, not_and]
      intro ha hb
      exact absurd (h2 p.1 p.2 ha.2 hb) (not_lt.2 ha.1)
    have : next mx s = { s with step := 6 } := by
      simp only [next, h1, step4, hf]
    rw [this]
    exact ⟨h0, Or.inr rfl, h2⟩
  · have : next mx s = step6 mx s := by simp only [next, h1]
    rw [this]
    refine ⟨h0, Or.inl rfl, ?_⟩
    intro i j hi hj
    simp only [step6] at hi hj ⊢
    have := (minval_spec mx s).1
    have h3 := h2 i j hi hj
    rw [hi, hj]
    simp only [Bool.false_eq_true, if_false]
    linarith

theorem stuck_loop (mx : K) (f : Nat) (s : St K n) (h : Stuck mx s) : loop mx f s = none := by
  have hs : ¬ 7 ≤ s.step := by rcases h.at46 with h | h <;> omega
  induction f generalizing s with
  | zero => rw [loop]; exact if_neg hs
  | succ f ih =>
    rw [loop, if_neg hs]
    have h' := stuck_next mx s h
    exact ih _ h' (by rcases h'.at46 with h | h <;> omega)

omit [CommRing K] [LinearOrder K] [IsStrictOrderedRing K] in
theorem upd_apply {α : Type} (M : Fin n → Fin n → α) (i j : Fin n) (v : α) (a b : Fin n) :
    upd M i j v a b = if a = i ∧ b = j then v else M a b := rfl

/-! ### initial state -/

omit [IsStrictOrderedRing K] in
theorem star_spec (A : Fin n → Fin n → K) :
    (∀ i j, (star A).1 i j = 0 ∨ (star A).1 i j = 1 ∧ A i j ≤ 0) ∧
    (∀ i j k, (star A).1 i j = 1 → (star A).1 i k = 1 → j = k) := by
  have key : ∀ (l : List (Fin n)) (s : (Fin n → Fin n → Nat) × (Fin n → Bool)),
      (∀ i j, s.1 i j = 0 ∨ s.1 i j = 1 ∧ A i j ≤ 0 ∧ s.2 i = true) →
      (∀ i j k, s.1 i j = 1 → s.1 i k = 1 → j = k) →
      let r := l.foldl (fun s j =>
        match (List.finRange n).find? (fun i => decide (A i j ≤ 0) && !s.2 i) with
        | some i => (upd s.1 i j 1, upd1 s.2 i true)
        | none => s) s
      (∀ i j, r.1 i j = 0 ∨ r.1 i j = 1 ∧ A i j ≤ 0 ∧ r.2 i = true) ∧
      (∀ i j k, r.1 i j = 1 → r.1 i k = 1 → j = k) := by
    intro l
    induction l with
    | nil => intro s h1 h2; exact ⟨h1, h2⟩
    | cons j l ih =>
      intro s h1 h2
      simp only [List.foldl_cons]
      apply ih
      · cases hf : (List.finRange n).find? (fun i => decide (A i j ≤ 0) && !s.2 i) with
        | none => exact h1
        | some i =>
          have := List.find?_some hf
          simp only [Bool.and_eq_true, Bool.not_eq_true', decide_eq_true_eq] at this
          intro a b
          simp only [upd, upd1]
          by_cases hab : a = i ∧ b = j
          · obtain ⟨rfl, rfl⟩ := hab
            simp [this.1]
          · rw [if_neg hab]
            rcases h1 a b with h | h
            · exact Or.inl h
            · refine Or.inr ⟨h.1, h.2.1, ?_⟩
              split
              · rfl
              · exact h.2.2
      · cases hf : (List.finRange n).find? (fun i => decide (A i j ≤ 0) && !s.2 i) with
        | none => exact h2
        | some i =>
          have := List.find?_some hf
          simp only [Bool.and_eq_true, Bool.not_eq_true', decide_eq_true_eq] at this
          have hr : ∀ k, s.1 i k ≠ 1 := by
            intro k hk
            rcases h1 i k with h | h
            · omega
            · rw [h.2.2] at this; exact absurd this.2 (by simp)
          intro a b c
          simp only [upd]
          by_cases ha : a = i
          · subst ha
            by_cases hb : b = j <;> by_cases hc : c = j <;> simp [hb, hc, hr]
          · simp only [ha, false_and, if_false]
            exact h2 a b c
  obtain ⟨h1, h2⟩ := key (List.finRange n) (fun _ _ => 0, fun _ => false) (by simp) (by simp)
  exact ⟨fun i j => (h1 i j).imp id (fun h => ⟨h.1, h.2.1⟩), h2⟩

theorem good_init (C : Fin n → Fin n → K) : Good C (init C) := by
  obtain ⟨h1, h2⟩ := star_spec (redRows (redCols C))
  refine ⟨⟨fun i => minVal (fun j => redCols C i j) i.pos, fun j => minVal (fun i => C i j) j.pos, ?_⟩,
    ?_, ?_, h2, ?_, ?_, ?_, ?_, ?_, Or.inl rfl, ?_⟩
  · intro i j
    simp only [init, redRows, redCols]
    ring
  · intro i j
    simp only [init, redRows]
    have := minVal_le (fun j => redCols C i j) i.pos j
    linarith
  · intro i j h
    rcases h1 i j with h' | h'
    · exact absurd h' h
    · exact h'.2
  · intro i j
    rcases h1 i j with h' | h' <;> simp only [init] <;> omega
  · intro _
    refine ⟨fun _ => rfl, fun _ => rfl, fun i j => ?_⟩
    rcases h1 i j with h' | h' <;> simp only [init] <;> omega
  · simp [init]
  · simp [init]
  · simp [init]
  · simp [init]

/-! ### the turns -/

omit [IsStrictOrderedRing K] in
theorem good_step3 (C : Fin n → Fin n → K) (s : St K n) (h : Good C s) (h3 : s.step = 3) :
    Good C (step3 s) := by
  obtain ⟨hr, hc, hm⟩ := h.at3 h3
  refine ⟨h.pot, h.nn, h.zero, h.row, h.le2, ?_, ?_, ?_, ?_, ?_, ?_⟩
  · simp only [step3]; split <;> intro h <;> omega
  · intro _
    refine ⟨?_, fun i j h => absurd h (hm i j)⟩
    intro i k _ hri
    exact absurd (hr i) (by simpa [step3] using hri)
  · simp only [step3]; split <;> intro h <;> omega
  · simp only [step3]; split <;> intro h <;> omega
  · simp only [step3]; split <;> simp
  · intro h7 j
    have : (List.finRange n).all (fun j => s.cc j || (List.finRange n).any (fun i => s.mask i j == 1)) = true := by
      by_contra hn
      simp only [step3] at h7
      rw [if_neg hn] at h7
      omega
    rw [List.all_eq_true] at this
    have := this j (List.mem_finRange j)
    rw [hc j, Bool.false_or, List.any_eq_true] at this
    obtain ⟨i, _, hi⟩ := this
    exact ⟨i, by simpa [step3] using hi⟩

omit [IsStrictOrderedRing K] in
theorem good_step4 (C : Fin n → Fin n → K) (s : St K n) (h : Good C s) (h4 : s.step = 4) :
    Good C (step4 s) := by
  obtain ⟨hc, hp⟩ := h.cov (Or.inl h4)
  cases hf : (cells n).find? (fun p => decide (s.A p.1 p.2 ≤ 0) && !s.rc p.1 && !s.cc p.2) with
  | none =>
    have e : step4 s = { s with step := 6 } := by simp only [step4, hf]
    rw [e]
    refine ⟨h.pot, h.nn, h.zero, h.row, h.le2, by simp, fun _ => ⟨hc, hp⟩, by simp, ?_, by simp, by simp⟩
    intro _ i j hi hj
    rw [List.find?_eq_none] at hf
    have := hf (i, j) (mem_cells _)
    simp only at hi hj
    simp only [hi, hj, Bool.not_false, Bool.and_true, decide_eq_true_eq, not_le] at this
    exact this
  | some p =>
    obtain ⟨i, j⟩ := p
    have hz := List.find?_some hf
    simp only [Bool.and_eq_true, Bool.not_eq_true', decide_eq_true_eq] at hz
    obtain ⟨⟨hA, hri⟩, hcj⟩ := hz
    have zero' : ∀ a b, upd s.mask i j 2 a b ≠ 0 → s.A a b ≤ 0 := by
      intro a b
      rw [upd_apply]
      split
      · rename_i hab; obtain ⟨rfl, rfl⟩ := hab; intro _; exact hA
      · exact h.zero a b
    have old : ∀ a b, upd s.mask i j 2 a b = 1 → s.mask a b = 1 := by
      intro a b
      rw [upd_apply]
      split
      · intro h; omega
      · exact id
    have row' : ∀ a b c, upd s.mask i j 2 a b = 1 → upd s.mask i j 2 a c = 1 → b = c := by
      intro a b c hb hc
      exact h.row a b c (old _ _ hb) (old _ _ hc)
    have le2' : ∀ a b, upd s.mask i j 2 a b ≤ 2 := by
      intro a b
      rw [upd_apply]
      split
      · exact le_refl _
      · exact h.le2 a b
    cases hk : (List.finRange n).find? (fun k => upd s.mask i j 2 i k == 1) with
    | none =>
      have e : step4 s = { s with mask := upd s.mask i j 2, z := some (i, j), step := 5 } := by
        simp only [step4, hf, hk]
      rw [e]
      refine ⟨h.pot, h.nn, zero', row', le2', by simp, by simp, ?_, by simp, by simp, by simp⟩
      intro _
      refine ⟨(i, j), rfl, by simp [upd_apply], ?_⟩
      rw [List.find?_eq_none] at hk
      intro k
      have := hk k (List.mem_finRange k)
      simpa using this
    | some k =>
      have e : step4 s = { s with mask := upd s.mask i j 2, rc := upd1 s.rc i true, cc := upd1 s.cc k false } := by
        simp only [step4, hf, hk]
      have hstar := List.find?_some hk
      simp only [beq_iff_eq] at hstar
      rw [e]
      refine ⟨h.pot, h.nn, zero', row', le2', by simp [h4], ?_, by simp [h4], by simp [h4], by simp [h4], by simp [h4]⟩
      intro _
      constructor
      · intro a b hab hra
        simp only [upd1] at hra ⊢
        by_cases ha : a = i
        · subst ha
          rw [if_pos (row' _ _ _ hab hstar)]
        · rw [if_neg ha] at hra
          split
          · rfl
          · exact hc a b (old _ _ hab) hra
      · intro a b hab
        simp only [upd1]
        simp only [upd_apply] at hab
        by_cases h' : a = i ∧ b = j
        · obtain ⟨rfl, rfl⟩ := h'
          simp [hcj]
        · rw [if_neg h'] at hab
          obtain ⟨h1, h2⟩ := hp a b hab
          simp [h1, h2]

theorem good_step6 (C : Fin n → Fin n → K) (mx : K) (s : St K n) (h : Good C s) (h6 : s.step = 6) (hmx : 0 < mx) :
    Good C (step6 mx s) := by
  obtain ⟨hc, hp⟩ := h.cov (Or.inr h6)
  have hu := h.at6 h6
  obtain ⟨_, m2, m3⟩ := minval_spec mx s
  have m0 : 0 ≤ minval mx s := by
    rcases m3 with m3 | ⟨i, j, h1, h2, m3⟩
    · rw [m3]; exact hmx.le
    · rw [m3]; exact h.nn i j
  obtain ⟨u, v, huv⟩ := h.pot
  refine ⟨⟨fun i => u i - (if s.rc i then minval mx s else 0),
    fun j => v j + (if s.cc j then 0 else minval mx s), ?_⟩, ?_, ?_, h.row, h.le2,
    by simp [step6], fun _ => ⟨hc, hp⟩, by simp [step6], by simp [step6], by simp [step6], by simp [step6]⟩
  · intro i j
    simp only [step6, huv]
    ring
  · intro i j
    simp only [step6]
    have := h.nn i j
    cases hi : s.rc i <;> cases hj : s.cc j
    · have := m2 i j hi hj
      simp only [Bool.false_eq_true, if_false]; linarith
    · simp; linarith
    · simp; linarith
    · simp; linarith
  · intro i j hm
    have hm' : s.mask i j ≠ 0 := hm
    have hz := h.zero i j hm'
    simp only [step6]
    have h2 := h.le2 i j
    have : s.mask i j = 1 ∨ s.mask i j = 2 := by omega
    rcases this with hs | hs
    · cases hi : s.rc i
      · cases hj : s.cc j
        · exact absurd (hu i j hi hj) (not_lt.2 hz)
        · simpa using hz
      · rw [hc i j hs hi]; simpa using hz
    · obtain ⟨hi, hj⟩ := hp i j hs
      rw [hi, hj]; simpa using hz

/-! ### step 5 -/

theorem toggle_spec (mask : Fin n → Fin n → Nat) (l : List (Fin n × Fin n)) (hl : l.Nodup) (a b : Fin n) :
    toggle mask l a b = if (a, b) ∈ l then (if mask a b = 1 then 0 else 1) else mask a b := by
  induction l with
  | nil => simp [toggle]
  | cons p l ih =>
    rw [List.nodup_cons] at hl
    have e : toggle mask (p :: l) a b
        = if a = p.1 ∧ b = p.2 then (if toggle mask l p.1 p.2 == 1 then 0 else 1) else toggle mask l a b := rfl
    rw [e]
    have ih := ih hl.2
    by_cases h : a = p.1 ∧ b = p.2
    · have hp : p = (a, b) := by ext <;> simp [h]
      subst hp
      simp only [List.mem_cons, true_or, if_true, and_self]
      rw [ih, if_neg hl.1]
      simp
    · rw [if_neg h, ih]
      have : (a, b) ≠ p := by
        intro hp; apply h; rw [← hp]; simp
      simp [List.mem_cons, this]

structure PathOk (mask : Fin n → Fin n → Nat) (z : Fin n × Fin n) (done : Fin n → Prop)
    (l : List (Fin n × Fin n)) : Prop where
  nodup : l.Nodup
  rows : ∀ c ∈ l, c = z ∨ done c.1
  nz : ∀ c ∈ l, mask c.1 c.2 = 1 ∨ mask c.1 c.2 = 2
  pr : ∀ c ∈ l, mask c.1 c.2 = 2 → c = z ∨ ∃ k, (c.1, k) ∈ l ∧ mask c.1 k = 1
  one : ∀ c ∈ l, ∀ d ∈ l, mask c.1 c.2 = 2 → mask d.1 d.2 = 2 → c.1 = d.1 → c = d

theorem path_ok (mask : Fin n → Fin n → Nat) (z : Fin n × Fin n) (hz : mask z.1 z.2 = 2)
    (hr : ∀ k, mask z.1 k ≠ 1) : PathOk mask z (fun _ => True) (path mask z) := by
  have key : ∀ (l : List (Fin n)) (done : Fin n → Prop) (p : (Fin n × Fin n) × List (Fin n × Fin n)),
      l.Nodup → (∀ i ∈ l, ¬ done i) → PathOk mask z done (p.1 :: p.2) →
      let r := l.foldl (pathTurn mask) p
      PathOk mask z (fun i => done i ∨ i ∈ l) (r.1 :: r.2) := by
    intro l
    induction l with
    | nil => intro d p _ _ h; simpa using h
    | cons i l ih =>
      intro d p hnd hd h
      simp only [List.foldl_cons]
      rw [List.nodup_cons] at hnd
      have := ih (fun a => d a ∨ a = i) (pathTurn mask p i) hnd.2 ?_ ?_
      · have e : (fun a => (d a ∨ a = i) ∨ a ∈ l) = fun a => d a ∨ a ∈ i :: l := by
          funext a; simp only [List.mem_cons, eq_iff_iff]; tauto
        rw [e] at this
        exact this
      · intro a ha
        rintro (h' | h')
        · exact hd a (List.mem_cons_of_mem _ ha) h'
        · subst h'; exact hnd.1 ha
      · have weak : PathOk mask z (fun a => d a ∨ a = i) (p.1 :: p.2) :=
          ⟨h.nodup, fun c hc => (h.rows c hc).imp id Or.inl, h.nz, h.pr, h.one⟩
        unfold pathTurn
        by_cases hs : (mask i p.1.2 == 1) = true
        · rw [if_pos hs]
          simp only [beq_iff_eq] at hs
          have hne : ∀ c ∈ p.1 :: p.2, c.1 ≠ i := by
            intro c hc e
            rcases h.rows c hc with h' | h'
            · subst h'; rw [← e] at hs; exact hr _ hs
            · rw [e] at h'; exact hd i List.mem_cons_self h'
          have hst : PathOk mask z (fun a => d a ∨ a = i) ((i, p.1.2) :: p.1 :: p.2) := by
            refine ⟨List.nodup_cons.2 ⟨fun hc => hne _ hc rfl, h.nodup⟩, ?_, ?_, ?_, ?_⟩
            · intro c hc
              rcases List.mem_cons.1 hc with rfl | hc
              · exact Or.inr (Or.inr rfl)
              · exact weak.rows c hc
            · intro c hc
              rcases List.mem_cons.1 hc with rfl | hc
              · exact Or.inl hs
              · exact h.nz c hc
            · intro c hc h2
              rcases List.mem_cons.1 hc with rfl | hc
              · simp only at h2; omega
              · rcases h.pr c hc h2 with h' | ⟨k, h1, h2⟩
                · exact Or.inl h'
                · exact Or.inr ⟨k, List.mem_cons_of_mem _ h1, h2⟩
            · intro c hc e he h1 h2 h3
              rcases List.mem_cons.1 hc with rfl | hc
              · simp only at h1; omega
              · rcases List.mem_cons.1 he with rfl | he
                · simp only at h2; omega
                · exact h.one c hc e he h1 h2 h3
          cases hj : (List.finRange n).find? (fun j => mask i j == 2) with
          | none => exact hst
          | some j =>
            have h2 := List.find?_some hj
            simp only [beq_iff_eq] at h2
            have hne' : ∀ c ∈ (i, p.1.2) :: p.1 :: p.2, mask c.1 c.2 = 2 → c.1 ≠ i := by
              intro c hc h1 h3
              rcases List.mem_cons.1 hc with rfl | hc
              · simp only at h1; omega
              · exact hne c hc h3
            refine ⟨List.nodup_cons.2 ⟨fun hc => hne' _ hc h2 rfl, hst.nodup⟩, ?_, ?_, ?_, ?_⟩
            · intro c hc
              rcases List.mem_cons.1 hc with rfl | hc
              · exact Or.inr (Or.inr rfl)
              · exact hst.rows c hc
            · intro c hc
              rcases List.mem_cons.1 hc with rfl | hc
              · exact Or.inr h2
              · exact hst.nz c hc
            · intro c hc h1
              rcases List.mem_cons.1 hc with rfl | hc
              · exact Or.inr ⟨p.1.2, List.mem_cons_of_mem _ List.mem_cons_self, hs⟩
              · rcases hst.pr c hc h1 with h' | ⟨k, h1, h2⟩
                · exact Or.inl h'
                · exact Or.inr ⟨k, List.mem_cons_of_mem _ h1, h2⟩
            · intro c hc e he h1 h2 h3
              rcases List.mem_cons.1 hc with rfl | hc
              · rcases List.mem_cons.1 he with rfl | he
                · rfl
                · exact absurd h3.symm (hne' e he h2)
              · rcases List.mem_cons.1 he with rfl | he
                · exact absurd h3 (hne' c hc h1)
                · exact hst.one c hc e he h1 h2 h3
        · rw [if_neg hs]
          exact weak
  have h0 : PathOk mask z (fun _ => False) [z] := by
    refine ⟨by simp, by simp, ?_, by simp, ?_⟩
    · intro c hc; simp only [List.mem_singleton] at hc; subst hc; exact Or.inr hz
    · intro c hc d hd; simp only [List.mem_singleton] at hc hd; subst hc hd; simp
  have := key (List.finRange n) (fun _ => False) (z, []) (List.nodup_finRange n) (by simp) h0
  refine ⟨this.nodup, fun _ _ => Or.inr trivial, this.nz, this.pr, this.one⟩

omit [IsStrictOrderedRing K] in
theorem good_step5 (C : Fin n → Fin n → K) (s : St K n) (h : Good C s) (h5 : s.step = 5) :
    Good C (step5 s) := by
  obtain ⟨z, hz, hz2, hr⟩ := h.at5 h5
  have hp := path_ok s.mask z hz2 hr
  set m' : Fin n → Fin n → Nat := fun i j =>
    if toggle s.mask (path s.mask z) i j == 2 then 0 else toggle s.mask (path s.mask z) i j with hm'
  have e : step5 s = { s with mask := m', rc := fun _ => false, cc := fun _ => false, step := 3 } := by
    simp only [step5, hz, hm']
  have val : ∀ i j, m' i j = if ((i, j) ∈ path s.mask z ∧ s.mask i j ≠ 1) ∨
      ((i, j) ∉ path s.mask z ∧ s.mask i j = 1) then 1 else 0 := by
    intro i j
    have h2 := h.le2 i j
    simp only [hm', toggle_spec _ _ hp.nodup, beq_iff_eq]
    by_cases ha : (i, j) ∈ path s.mask z <;> by_cases hb : s.mask i j = 1 <;> simp [ha, hb]
    omega
  have one : ∀ i j, m' i j = 1 → ((i, j) ∈ path s.mask z ∧ s.mask i j = 2) ∨
      ((i, j) ∉ path s.mask z ∧ s.mask i j = 1) := by
    intro i j hij
    rw [val] at hij
    by_contra hn
    rw [if_neg] at hij
    · omega
    · rintro (⟨h1, h2⟩ | h1)
      · exact hn (Or.inl ⟨h1, (hp.nz _ h1).resolve_left h2⟩)
      · exact hn (Or.inr h1)
  have le1 : ∀ i j, m' i j ≤ 1 := by
    intro i j; rw [val]; split <;> omega
  rw [e]
  refine ⟨h.pot, h.nn, ?_, ?_, fun i j => (le1 i j).trans (by omega), ?_, by simp, by simp, by simp, by simp, by simp⟩
  · intro i j hij
    have h1 := le1 i j
    simp only at hij
    rcases one i j (by omega) with h' | h' <;> exact h.zero i j (by omega)
  · intro i j k hj hk
    rcases one i j hj with ⟨j1, j2⟩ | ⟨j1, j2⟩ <;> rcases one i k hk with ⟨k1, k2⟩ | ⟨k1, k2⟩
    · have := hp.one _ j1 _ k1 j2 k2 rfl
      simpa using this
    · rcases hp.pr _ j1 j2 with h' | ⟨c, h1, h2⟩
      · rw [← h'] at hr; exact absurd k2 (hr k)
      · have := h.row i c k h2 k2
        subst this; exact absurd h1 k1
    · rcases hp.pr _ k1 k2 with h' | ⟨c, h1, h2⟩
      · rw [← h'] at hr; exact absurd j2 (hr j)
      · have := h.row i c j h2 j2
        subst this; exact absurd h1 j1
    · exact h.row i j k j2 k2
  · intro _
    refine ⟨fun _ => rfl, fun _ => rfl, fun i j => ?_⟩
    have := le1 i j
    simp only
    omega

theorem good_next (C : Fin n → Fin n → K) (mx : K) (s : St K n) (h : Good C s) (h7 : ¬ 7 ≤ s.step) :
    Good C (next mx s) ∨ Stuck mx (next mx s) := by
  rcases h.steps with h3 | h3 | h3 | h3 | h3
  · left; simp only [next, h3]; exact good_step3 C s h h3
  · left; simp only [next, h3]; exact good_step4 C s h h3
  · left; simp only [next, h3]; exact good_step5 C s h h3
  · by_cases hm : 0 < mx
    · left; simp only [next, h3]; exact good_step6 C mx s h h3 hm
    · right; exact stuck_next mx s ⟨not_lt.1 hm, Or.inr h3, h.at6 h3⟩
  · omega

theorem good_loop (C : Fin n → Fin n → K) (mx : K) (f : Nat) (s r : St K n) (h : Good C s)
    (hr : loop mx f s = some r) : Good C r ∧ r.step = 7 := by
  induction f generalizing s with
  | zero =>
    rw [loop] at hr
    by_cases h7 : 7 ≤ s.step
    · rw [if_pos h7] at hr
      cases hr
      exact ⟨h, by rcases h.steps with h' | h' | h' | h' | h' <;> omega⟩
    · rw [if_neg h7] at hr; cases hr
  | succ f ih =>
    rw [loop] at hr
    by_cases h7 : 7 ≤ s.step
    · rw [if_pos h7] at hr
      cases hr
      exact ⟨h, by rcases h.steps with h' | h' | h' | h' | h' <;> omega⟩
    · rw [if_neg h7] at hr
      rcases good_next C mx s h h7 with h' | h'
      · exact ih _ h' hr
      · rw [stuck_loop mx f _ h'] at hr; cases hr

/-! ### assignments -/

omit [CommRing K] [LinearOrder K] [IsStrictOrderedRing K] in
theorem assign_spec (mask : Fin n → Fin n → Nat) (ra ca : Fin n → Int) (σ : Equiv.Perm (Fin n))
    (h : ∀ i j, mask i j = 1 ↔ σ i = j) :
    (∀ i, (assign mask ra ca).1 i = (σ i : Nat)) ∧ ∀ j, (assign mask ra ca).2 j = (σ.symm j : Nat) := by
  have key : ∀ (l : List (Fin n × Fin n)) (r : (Fin n → Int) × (Fin n → Int)),
      let q := l.foldl (fun r p =>
        if mask p.1 p.2 == 1 then (upd1 r.1 p.1 ((p.2 : Nat) : Int), upd1 r.2 p.2 ((p.1 : Nat) : Int)) else r) r
      (∀ i, q.1 i = (σ i : Nat) ∨ ((i, σ i) ∉ l ∧ q.1 i = r.1 i)) ∧
      (∀ j, q.2 j = (σ.symm j : Nat) ∨ ((σ.symm j, j) ∉ l ∧ q.2 j = r.2 j)) := by
    intro l
    induction l with
    | nil => intro r; simp
    | cons p l ih =>
      intro r
      simp only [List.foldl_cons]
      by_cases hp : (mask p.1 p.2 == 1) = true
      · rw [if_pos hp]
        simp only [beq_iff_eq, h] at hp
        obtain ⟨h1, h2⟩ := ih (upd1 r.1 p.1 ((p.2 : Nat) : Int), upd1 r.2 p.2 ((p.1 : Nat) : Int))
        constructor
        · intro i
          rcases h1 i with h' | ⟨h', h''⟩
          · exact Or.inl h'
          · simp only [upd1] at h''
            by_cases e : i = p.1
            · rw [if_pos e] at h''; left; rw [h'', e, hp]
            · rw [if_neg e] at h''
              refine Or.inr ⟨?_, h''⟩
              intro hm
              rcases List.mem_cons.1 hm with h3 | h3
              · exact e (by rw [← h3])
              · exact h' h3
        · intro j
          rcases h2 j with h' | ⟨h', h''⟩
          · exact Or.inl h'
          · simp only [upd1] at h''
            by_cases e : j = p.2
            · rw [if_pos e] at h''; left; rw [h'', e, ← hp]; simp
            · rw [if_neg e] at h''
              refine Or.inr ⟨?_, h''⟩
              intro hm
              rcases List.mem_cons.1 hm with h3 | h3
              · exact e (by rw [← h3])
              · exact h' h3
      · rw [if_neg hp]
        simp only [beq_iff_eq, h] at hp
        obtain ⟨h1, h2⟩ := ih r
        constructor
        · intro i
          rcases h1 i with h' | ⟨h', h''⟩
          · exact Or.inl h'
          · refine Or.inr ⟨?_, h''⟩
            intro hm
            rcases List.mem_cons.1 hm with h3 | h3
            · exact hp (by rw [← h3])
            · exact h' h3
        · intro j
          rcases h2 j with h' | ⟨h', h''⟩
          · exact Or.inl h'
          · refine Or.inr ⟨?_, h''⟩
            intro hm
            rcases List.mem_cons.1 hm with h3 | h3
            · exact hp (by rw [← h3]; simp)
            · exact h' h3
  obtain ⟨h1, h2⟩ := key (cells n) (ra, ca)
  exact ⟨fun i => (h1 i).resolve_right (fun h => h.1 (mem_cells _)),
    fun j => (h2 j).resolve_right (fun h => h.1 (mem_cells _))⟩

theorem good_optimal (C : Fin n → Fin n → K) (s : St K n) (h : Good C s) (h7 : s.step = 7) :
    ∃ σ : Equiv.Perm (Fin n), (∀ i j, s.mask i j = 1 ↔ σ i = j) ∧
      ∀ τ : Equiv.Perm (Fin n), ∑ i, C i (σ i) ≤ ∑ i, C i (τ i) := by
  choose g hg using h.done h7
  have inj : Function.Injective g := by
    intro a b e
    have := hg a
    rw [e] at this
    exact h.row _ _ _ this (hg b)
  let π : Equiv.Perm (Fin n) := Equiv.ofBijective g (Finite.injective_iff_bijective.1 inj)
  have hπ : ∀ j, s.mask (π j) j = 1 := hg
  refine ⟨π.symm, ?_, ?_⟩
  · intro i j
    constructor
    · intro hij
      have h1 := hπ (π.symm i)
      rw [Equiv.apply_symm_apply] at h1
      exact h.row _ _ _ h1 hij
    · rintro rfl
      have h1 := hπ (π.symm i)
      rwa [Equiv.apply_symm_apply] at h1
  · intro τ
    obtain ⟨u, v, huv⟩ := h.pot
    have cost : ∀ ρ : Equiv.Perm (Fin n), ∑ i, C i (ρ i) = ∑ i, s.A i (ρ i) + (∑ i, u i + ∑ j, v j) := by
      intro ρ
      rw [← Equiv.sum_comp ρ v, ← Finset.sum_add_distrib, ← Finset.sum_add_distrib]
      apply Finset.sum_congr rfl
      intro i _
      rw [huv]; ring
    rw [cost, cost]
    have h1 : ∑ i, s.A i (π.symm i) ≤ 0 := by
      apply Finset.sum_nonpos
      intro i _
      apply h.zero
      have h1 := hπ (π.symm i)
      rw [Equiv.apply_symm_apply] at h1
      omega
    have h2 : 0 ≤ ∑ i, s.A i (τ i) := Finset.sum_nonneg fun i _ => h.nn _ _
    linarith

end Verif.Hungarian
