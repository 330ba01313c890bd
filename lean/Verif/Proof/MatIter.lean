import Verif.Model.MatIter
import Mathlib.Tactic.Linarith
import Mathlib.Tactic.Ring

/-! # Helper lemmas for the iterators of vectors and matrices -/

namespace Verif.MatIter

open Verif.Mat

variable {K : Type}

theorem walk_stop (step fuel a : Nat) : walk step fuel a a = some [] := by
  cases fuel <;> simp [walk]

theorem walk_go {step : Nat} (hs : 0 < step) (n : Nat) : ∀ (fuel cur : Nat), n ≤ fuel →
    walk step fuel cur (cur + n * step) = some ((List.range n).map fun i => cur + i * step) := by
  induction n with
  | zero => intro fuel cur _; simpa using walk_stop step fuel cur
  | succ n ih =>
      intro fuel cur hf
      obtain ⟨fuel, rfl⟩ : ∃ f, fuel = f + 1 := ⟨fuel - 1, by omega⟩
      have hne : cur ≠ cur + (n + 1) * step := by
        have : 0 < (n + 1) * step := Nat.mul_pos (Nat.succ_pos _) hs
        omega
      have e : cur + (n + 1) * step = (cur + step) + n * step := by ring
      rw [walk, if_neg hne, e, ih fuel (cur + step) (by omega)]
      simp only [Option.map_some, Option.some.injEq, List.range_succ_eq_map, List.map_cons,
        List.map_map, Nat.zero_mul, Nat.add_zero]
      congr 1
      apply List.map_congr_left
      intro i _
      simp only [Function.comp, Nat.succ_eq_add_one]
      ring

/-- What `std::copy` does when all of it fits. -/
theorem put_spec {lim inc : Nat} (hi : 0 < inc) (xs : List K) : ∀ (a : Nat) (m : Mem K),
    (∀ t, t < xs.length → a + t * inc < lim) →
    ∃ m', put lim inc a xs m = some m' ∧ (∀ t (h : t < xs.length), m' (a + t * inc) = xs[t]) ∧
      ∀ b, (∀ t, t < xs.length → b ≠ a + t * inc) → m' b = m b := by
  induction xs with
  | nil => intro a m _; exact ⟨m, rfl, fun t h => absurd h (by simp), fun _ _ => rfl⟩
  | cons x xs ih =>
      intro a m hl
      have h0 : a < lim := by simpa using hl 0 (by simp)
      obtain ⟨m', e, hv, hf⟩ := ih (a + inc) (store m a x) (fun t ht => by
        have := hl (t + 1) (by simpa using ht)
        have e2 : a + (t + 1) * inc = a + inc + t * inc := by ring
        omega)
      refine ⟨m', by rw [put, if_pos h0, e], ?_, ?_⟩
      · intro t ht
        cases t with
        | zero =>
            have := hf a (fun t _ => by omega)
            simpa [store] using this
        | succ t =>
            have := hv t (by simpa using ht)
            have e2 : a + (t + 1) * inc = a + inc + t * inc := by ring
            rw [e2, this]; simp
      · intro b hb
        have := hf b (fun t ht => by
          have := hb (t + 1) (by simpa using ht)
          have e2 : a + (t + 1) * inc = a + inc + t * inc := by ring
          omega)
        rw [this, store, if_neg]
        simpa using hb 0 (by simp)

/-- A copy that does not fit is out of bounds. -/
theorem put_none {lim inc : Nat} (xs : List K) : ∀ (a : Nat) (m : Mem K) (t : Nat),
    t < xs.length → lim ≤ a + t * inc → put lim inc a xs m = none := by
  induction xs with
  | nil => intro a m t h; simp at h
  | cons x xs ih =>
      intro a m t ht hl
      rw [put]
      split_ifs with h0
      · cases t with
        | zero => omega
        | succ t =>
            exact ih (a + inc) _ t (by simpa using ht) (by
              have e2 : a + (t + 1) * inc = a + inc + t * inc := by ring
              omega)
      · rfl

/-- What the loop of `col_mat` and `row_mat` does with lists of one length. -/
theorem fill_spec {lim step inc r : Nat} (hi : 0 < inc) (hs : 0 < step) (L : List (List K)) :
    ∀ (cur : Nat) (m : Mem K), (∀ l ∈ L, l.length = r) →
    (∀ k t, k < L.length → t < r → cur + k * step + t * inc < lim) →
    (∀ k t k' t', k < L.length → t < r → k' < L.length → t' < r →
      cur + k * step + t * inc = cur + k' * step + t' * inc → k = k') →
    ∃ m', fill lim step inc (cur + L.length * step) cur L m = some m' ∧
      (∀ k t (hk : k < L.length) (ht : t < L[k].length),
        m' (cur + k * step + t * inc) = L[k][t]) ∧
      ∀ b, (∀ k t, k < L.length → t < r → b ≠ cur + k * step + t * inc) → m' b = m b := by
  induction L with
  | nil =>
      intro cur m _ _ _
      exact ⟨m, by simp [fill], fun k t h => absurd h (by simp), fun _ _ => rfl⟩
  | cons l ls ih =>
      intro cur m hr hl hj
      have hlr : l.length = r := hr l (by simp)
      have hne : cur ≠ cur + (l :: ls).length * step := by
        have : 0 < (l :: ls).length * step := Nat.mul_pos (by simp) hs
        omega
      obtain ⟨m1, e1, hv1, hf1⟩ := put_spec hi l cur m (fun t ht => by
        have := hl 0 t (by simp) (hlr ▸ ht)
        simpa using this)
      have sh : ∀ k t, cur + (k + 1) * step + t * inc = cur + step + k * step + t * inc := by
        intro k t; ring
      obtain ⟨m2, e2, hv2, hf2⟩ := ih (cur + step) m1 (fun x hx => hr x (by simp [hx]))
        (fun k t hk ht => by rw [← sh]; exact hl (k + 1) t (by simpa using hk) ht)
        (fun k t k' t' hk ht hk' ht' e => by
          rw [← sh, ← sh] at e
          have := hj (k + 1) t (k' + 1) t' (by simpa using hk) ht (by simpa using hk') ht' e
          omega)
      have es : cur + (l :: ls).length * step = cur + step + ls.length * step := by
        simp only [List.length_cons]; ring
      refine ⟨m2, ?_, ?_, ?_⟩
      · rw [fill, if_neg hne, e1, Option.bind_some, es, e2]
      · intro k t hk ht
        cases k with
        | zero =>
            have ht' : t < l.length := by simpa using ht
            have := hf2 (cur + t * inc) (fun k' t' hk' ht'' e => by
              have e3 : cur + 0 * step + t * inc = cur + (k' + 1) * step + t' * inc := by
                rw [sh, ← e]; ring
              have := hj 0 t (k' + 1) t' (by simp) (hlr ▸ ht') (by simpa using hk') ht'' e3
              omega)
            simpa [this] using hv1 t ht'
        | succ k =>
            rw [sh]
            have := hv2 k t (by simpa using hk) (by simpa using ht)
            rw [this]; simp
      · intro b hb
        rw [hf2 b (fun k t hk ht => by rw [← sh]; exact hb (k + 1) t (by simpa using hk) ht)]
        exact hf1 b (fun t ht => by simpa using hb 0 t (by simp) (hlr ▸ ht))

/-- A copy that succeeds changes only what lies before the end of the allocation. -/
theorem put_frame {lim inc : Nat} (xs : List K) : ∀ (a : Nat) (m m' : Mem K),
    put lim inc a xs m = some m' → ∀ b, b < a ∨ lim ≤ b → m' b = m b := by
  induction xs with
  | nil => intro a m m' h b _; simp only [put, Option.some.injEq] at h; rw [h]
  | cons x xs ih =>
      intro a m m' h b hb
      rw [put] at h
      split_ifs at h with h0
      rw [ih _ _ _ h b (by omega), store, if_neg (by omega)]

theorem fill_frame {lim step inc stop : Nat} (L : List (List K)) : ∀ (cur : Nat) (m m' : Mem K),
    fill lim step inc stop cur L m = some m' → ∀ b, b < cur ∨ lim ≤ b → m' b = m b := by
  induction L with
  | nil =>
      intro cur m m' h b _
      rw [fill] at h
      split_ifs at h
      rw [Option.some.inj h]
  | cons l ls ih =>
      intro cur m m' h b hb
      rw [fill] at h
      split_ifs at h with h0
      · rw [Option.some.inj h]
      · obtain ⟨m1, e1, e2⟩ := Option.bind_eq_some_iff.mp h
        rw [ih _ _ _ e2 b (by omega), put_frame l _ _ _ e1 b hb]

end Verif.MatIter
