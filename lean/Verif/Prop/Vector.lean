import Verif.Model.Vector

/-! Property C10: growable vectors. -/

namespace Verif.Vector

structure Inv {α} (v : Vec α) (xs : List α) : Prop where
  size : v.size = xs.length
  data : ∀ i (h : i < xs.length), v.data i = xs[i]
  cap : v.size ≤ v.max
  grow : 2 ^ v.reallocs ≤ v.max + 1
  used : 0 < v.reallocs → v.max ≤ 2 * v.size

theorem push_inv {α} {v : Vec α} {xs} (h : Inv v xs) (x : α) (g : Nat → α) :
    ∃ v', push v x g = some v' ∧ Inv v' (xs ++ [x]) := by
  obtain ⟨h1, h2, h3, h4, h5⟩ := h
  by_cases hc : v.max ≤ v.size
  · refine ⟨⟨2 * (v.size + 1), v.size + 1, fun i => if i = v.size then x else
      if i < min v.max (2 * (v.size + 1)) then v.data i else g i, v.reallocs + 1⟩, ?_, ?_, ?_, ?_, ?_, ?_⟩
    · have : v.size < 2 * (v.size + 1) := by omega
      simp [push, realloc, hc, this]
    · simp [h1]
    · intro i hi
      simp only [List.length_append, List.length_singleton] at hi
      by_cases he : i = v.size
      · simp [he, h1]
      · have hlt : i < xs.length := by omega
        have hm : i < min v.max (2 * (v.size + 1)) := by omega
        simp [he, hm, h2 i hlt, List.getElem_append_left hlt]
    · dsimp only; omega
    · dsimp only; rw [Nat.pow_succ]; omega
    · intro _; dsimp only; omega
  · have hlt : v.size < v.max := by omega
    refine ⟨{ v with size := v.size + 1, data := fun i => if i = v.size then x else v.data i }, ?_, ?_, ?_, ?_, ?_, ?_⟩
    · simp [push, hc, hlt]
    · simp [h1]
    · intro i hi
      simp only [List.length_append, List.length_singleton] at hi
      by_cases he : i = v.size
      · simp [he, h1]
      · have hlt : i < xs.length := by omega
        simp [he, h2 i hlt, List.getElem_append_left hlt]
    · exact hlt
    · exact h4
    · intro h; have := h5 h; dsimp only; omega

theorem pushAll_inv {α} {v : Vec α} {xs} (h : Inv v xs) (ps : List (α × (Nat → α))) :
    ∃ v', pushAll v ps = some v' ∧ Inv v' (xs ++ ps.map Prod.fst) := by
  induction ps generalizing v xs with
  | nil => exact ⟨v, rfl, by simpa using h⟩
  | cons p ps ih =>
    obtain ⟨v1, h1, h2⟩ := push_inv h p.1 p.2
    obtain ⟨v2, h3, h4⟩ := ih h2
    exact ⟨v2, by simp [pushAll, h1, h3], by simpa using h4⟩

/-- **C10**. Pushing any list of values on a vector of any initial capacity never
stores outside the buffer, ends with exactly the pushed values in order, within
capacity, after at most `log2 (2 n + 1)` reallocations. -/
theorem C10_vector_push {α} (cap : Nat) (g0 : Nat → α) (ps : List (α × (Nat → α))) :
    ∃ v, pushAll (init cap g0) ps = some v ∧ toList v = ps.map Prod.fst ∧ v.size ≤ v.max ∧
      2 ^ v.reallocs ≤ 2 * ps.length + 1 := by
  have h0 : Inv (init cap g0) ([] : List α) := ⟨rfl, by simp, by simp [init], by simp [init], by simp [init]⟩
  obtain ⟨v, h1, h2⟩ := pushAll_inv h0 ps
  simp only [List.nil_append] at h2
  have hs : v.size = ps.length := by rw [h2.size]; simp
  refine ⟨v, h1, ?_, h2.cap, ?_⟩
  · apply List.ext_getElem
    · simp [toList, hs]
    · intro i hi hi'
      simp only [toList, List.getElem_map, List.getElem_range]
      simpa using h2.data i hi'
  · have := h2.grow; have := h2.used
    by_cases hz : 0 < v.reallocs
    · have := h2.used hz; omega
    · have : v.reallocs = 0 := by omega
      rw [this]; omega

example : (pushAll (init 0 fun _ => 0) [(5, fun _ => 9), (6, fun _ => 9), (7, fun _ => 9)]).map
    (fun v => (toList v, v.max, v.reallocs)) = some ([5, 6, 7], 6, 2) := by decide

end Verif.Vector
