import Verif.Model.Encode
import Mathlib.Data.List.Range

/-!
# C170: videos show every frame in order, and then the last one for a while
-/

namespace Verif.Encode

theorem sort_perm (l : List Nat) : (sortFrames l).Perm l := List.perm_insertionSort _ l

theorem sort_pairwise (l : List Nat) : (sortFrames l).Pairwise (· ≤ ·) :=
  List.pairwise_insertionSort _ l

theorem mem_dropWhile_ne (l : List Nat) (hs : l.Pairwise (· < ·)) (a : Nat) (ha : a ∈ l) (n : Nat) :
    n ∈ l.dropWhile (fun b => b ≠ a) ↔ n ∈ l ∧ a ≤ n := by
  induction l with
  | nil => simp at ha
  | cons b l ih =>
    have hs' := List.pairwise_cons.1 hs
    by_cases h : b = a
    · subst h
      simp only [List.dropWhile_cons, ne_eq, not_true_eq_false, decide_false, Bool.false_eq_true, if_false]
      constructor
      · intro hn
        refine ⟨hn, ?_⟩
        rcases List.mem_cons.1 hn with h | h
        · omega
        · exact (hs'.1 n h).le
      · exact fun h => h.1
    · have ha' : a ∈ l := by
        rcases List.mem_cons.1 ha with h' | h'
        · exact absurd h'.symm h
        · exact h'
      have hlt := hs'.1 a ha'
      simp only [List.dropWhile_cons, ne_eq, h, not_false_eq_true, decide_true, if_true]
      rw [ih hs'.2 ha']
      constructor
      · exact fun h => ⟨List.mem_cons_of_mem _ h.1, h.2⟩
      · rintro ⟨h1, h2⟩
        rcases List.mem_cons.1 h1 with h' | h'
        · omega
        · exact ⟨h', h2⟩

theorem sort_lt (l : List Nat) (h : l.Nodup) : (sortFrames l).Pairwise (· < ·) := by
  have h1 := sort_pairwise l
  have h2 : (sortFrames l).Nodup := (sort_perm l).nodup_iff.2 h
  exact h1.imp₂ (fun a b hab hne => lt_of_le_of_ne hab hne) h2

/-- Of the images, exactly those are used whose number is not below that of the image listed first. -/
theorem C170_used (a : Nat) (l : List Nat) (h : (a :: l).Nodup) (n : Nat) :
    n ∈ imagesAfter (a :: l) ↔ n ∈ a :: l ∧ a ≤ n := by
  have hp := sort_perm (a :: l)
  rw [imagesAfter, mem_dropWhile_ne _ (sort_lt _ h) a (hp.mem_iff.2 (by simp)), hp.mem_iff]

theorem readFrom_eq (vf : Nat → Option Nat) (L : List Nat) : ∀ s k, L.length ≤ k →
    (∀ i (hi : i < L.length), vf (s + i) = some L[i]) → vf (s + L.length) = none →
    readFrom vf s k = L := by
  induction L with
  | nil =>
    intro s k _ _ h
    cases k with
    | zero => rfl
    | succ k => simp only [List.length_nil, Nat.add_zero] at h; simp [readFrom, h]
  | cons b L ih =>
    intro s k hk h hn
    cases k with
    | zero => simp at hk
    | succ k =>
      have h0 := h 0 (by simp)
      simp only [Nat.add_zero, List.getElem_cons_zero] at h0
      simp only [readFrom, h0]
      congr 1
      refine ih (s + 1) k (by simpa using hk) (fun i hi => ?_) ?_
      · have := h (i + 1) (by simpa using hi)
        rw [show s + 1 + i = s + (i + 1) by omega, this]; rfl
      · rw [← hn]; congr 1; simp; omega

/-- The video of images numbered without gaps, from `a` below 5 on, has all of them in order, and then the
last one `pad - 1` times. Missing: listings that do not begin with the least number, for which it does not
hold (`C170_listing_violates`), and images numbered from 5 or more, for which ffmpeg finds none. -/
theorem C170_video_partial (a n pad : Nat) (l : List Nat) (ha : a < 5)
    (hl : (a :: l).Perm (List.range' a (n + 1))) :
    encode (a :: l) pad = some (List.range' a (n + 1) ++ List.replicate (pad - 1) (a + n)) := by
  have hnd : (a :: l).Nodup := hl.nodup_iff.2 List.nodup_range'
  have hsort : sortFrames (a :: l) = List.range' a (n + 1) := by
    have hp := (sort_perm (a :: l)).trans hl
    exact hp.eq_of_pairwise (fun _ _ _ _ => le_antisymm) (sort_pairwise _)
      ((List.pairwise_lt_range' (s := a) (n := n + 1)).imp fun h => h.le)
  have hlast : lastFrame (a :: l) = some (a + n) := by
    rw [lastFrame, hsort]
    rw [List.range'_concat]
    simp
  have hmem : ∀ m, m ∈ imagesAfter (a :: l) ↔ a ≤ m ∧ m ≤ a + n := by
    intro m
    rw [C170_used a l hnd, hl.mem_iff, List.mem_range'_1]
    omega
  have hv1 : ∀ m, a ≤ m → m ≤ a + n → vframe (a :: l) (a + n) pad m = some m := by
    intro m h1 h2
    rw [vframe, if_neg (by omega), if_pos ((hmem m).2 ⟨h1, h2⟩)]
  have hv0 : ∀ m, m < a → vframe (a :: l) (a + n) pad m = none := by
    intro m h1
    rw [vframe, if_neg (by omega), if_neg (by rw [hmem]; omega)]
  have hv2 : ∀ m, a + n < m → m < a + n + pad → vframe (a :: l) (a + n) pad m = some (a + n) := by
    intro m h1 h2
    rw [vframe, if_pos ⟨h1, h2⟩]
  have hv3 : vframe (a :: l) (a + n) pad (a + (n + 1 + (pad - 1))) = none := by
    rw [vframe, if_neg (by omega), if_neg (by rw [hmem]; omega)]
  have hfind : ((List.range 5).find? fun m => (vframe (a :: l) (a + n) pad m).isSome) = some a := by
    rw [List.find?_range_eq_some]
    refine ⟨by simp [hv1 a le_rfl (by omega)], by simpa using ha, fun j hj => by simp [hv0 j hj]⟩
  have hlen : (a :: l).length = n + 1 := by rw [hl.length_eq, List.length_range']
  simp only [encode, hlast, Option.bind_some, hfind, Option.map_some, hlen]
  congr 1
  refine readFrom_eq _ _ _ _ (by simp) (fun i hi => ?_) (by simpa using hv3)
  simp only [List.length_append, List.length_range', List.length_replicate] at hi
  by_cases h : i < n + 1
  · rw [List.getElem_append_left (by simpa using h), List.getElem_range', hv1 _ (by omega) (by omega)]
    simp
  · rw [List.getElem_append_right (by simpa using h), List.getElem_replicate, hv2 _ (by omega) (by omega)]

/-- Violated: images 2 to 10, listed in the order of their names, make a video, or none, without the images
2 to 9, since sorting changes the list. -/
theorem C170_listing_violates :
    imagesAfter [10, 2, 3, 4, 5, 6, 7, 8, 9] = [10] ∧ encode [10, 2, 3, 4, 5, 6, 7, 8, 9] 15 = none ∧
    encode [10, 2, 3, 4, 5, 6, 7, 8, 9] 15 ≠
      some (List.range' 2 9 ++ List.replicate 14 10) := by
  refine ⟨by decide +kernel, by decide +kernel, by decide +kernel⟩

/-- Violated: images numbered from 7 on make no video, since ffmpeg looks for a first number below 5 only. -/
theorem C170_start_violates :
    encode [7, 8] 3 = none ∧ encode [7, 8] 3 ≠ some (List.range' 7 2 ++ List.replicate 2 8) := by
  refine ⟨by decide +kernel, by decide +kernel⟩

/-- No images are an error. -/
theorem C170_empty (pad : Nat) : encode [] pad = none := rfl

example : encode [0, 1, 10, 2, 3, 4, 5, 6, 7, 8, 9] 3 = some [0, 1, 2, 3, 4, 5, 6, 7, 8, 9, 10, 10, 10] := by
  decide +kernel

example : ([0, 1, 10, 2, 3, 4, 5, 6, 7, 8, 9] : List Nat).Perm (List.range' 0 11) := by decide +kernel

end Verif.Encode
