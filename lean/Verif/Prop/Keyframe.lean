/-
C164: animations from key frames.
-/
import Verif.Proof.Keyframe
import Mathlib.LinearAlgebra.AffineSpace.AffineMap
import Mathlib.Algebra.Order.Floor.Semiring
import Mathlib.Data.Rat.Floor
import Mathlib.Tactic.NormNum

set_option linter.unusedSectionVars false

namespace Verif.Keyframe

variable {N K : Type} [LinearOrder N] [Field K] [LinearOrder K] [IsStrictOrderedRing K]

/-- Key frames as users give them: at different times, and maps hold each name once. -/
structure Good (l : List (Key N K)) : Prop where
  times : (l.map Key.time).Nodup
  maps : ∀ k ∈ l, (k.cfg.map Prod.fst).Nodup

/-- `b` is the next key frame after `a`. -/
def Next (l : List (Key N K)) (a b : Key N K) : Prop :=
  a ∈ l ∧ b ∈ l ∧ a.time < b.time ∧ ∀ c ∈ l, c.time ≤ a.time ∨ b.time ≤ c.time

/-- Any tree that holds the set of key frames of `l`. -/
def Holds (s : Tree (Key N K × Key N K)) (l : List (Key N K)) (clip : Bool) : Prop :=
  keyframeSet l clip = some s.elems

theorem holds_false {s : Tree (Key N K × Key N K)} {l : List (Key N K)} (hl : Good l) (hs : Holds s l false) :
    s.elems = pairs (sortKeys l) := by
  unfold Holds keyframeSet at hs
  simp only [Bool.false_eq_true, if_false, Option.map_some, Option.some.injEq] at hs
  rw [← hs, insertAll_eq (sortKeys_asc hl.times)]

/-- The set of key frames can always be made, and its elements are the pairs of neighbours; the assertions of the
comparison hold for them. -/
theorem C164_set (l : List (Key N K)) (hl : Good l) :
    ∃ e, keyframeSet l false = some e ∧ (∀ a b, (a, b) ∈ e ↔ Next l a b) ∧ ∀ p ∈ e, pairOk p := by
  have hk := sortKeys_asc hl.times
  refine ⟨pairs (sortKeys l), by simp [keyframeSet, insertAll_eq hk], fun a b => ⟨fun h => ?_, fun h => ?_⟩,
    fun p hp => (pairs_lt hk hp).1.le⟩
  · have h1 := pairs_mem h
    have h2 := pairs_lt hk h
    exact ⟨(sortKeys_perm l).mem_iff.1 h1.1, (sortKeys_perm l).mem_iff.1 h1.2, h2.1,
      fun c hc => h2.2 c ((sortKeys_perm l).mem_iff.2 hc)⟩
  · obtain ⟨ha, hb, hab, hc⟩ := h
    obtain ⟨p, hp, h1, h2⟩ := exists_pair hk ((sortKeys_perm l).mem_iff.2 ha) ((sortKeys_perm l).mem_iff.2 hb) le_rfl hab
    have hm := pairs_mem hp
    have hl2 := (pairs_lt hk hp).2
    have inj : ∀ x ∈ l, ∀ y ∈ l, x.time = y.time → x = y := fun x hx y hy h => List.inj_on_of_nodup_map hl.times hx hy h
    have e1 : p.1 = a := by
      refine inj _ ((sortKeys_perm l).mem_iff.1 hm.1) _ ha (le_antisymm h1 ?_)
      rcases hl2 a ((sortKeys_perm l).mem_iff.2 ha) with h | h
      · exact h
      · exact absurd h (not_le.2 h2)
    have e2 : p.2 = b := by
      refine inj _ ((sortKeys_perm l).mem_iff.1 hm.2) _ hb (le_antisymm ?_ ?_)
      · rcases hl2 b ((sortKeys_perm l).mem_iff.2 hb) with h | h
        · exact absurd (h.trans h1) (not_le.2 hab)
        · exact h
      · rcases hc _ ((sortKeys_perm l).mem_iff.1 hm.2) with h | h
        · exact absurd h (not_le.2 h2)
        · exact h
    rw [← e1, ← e2]
    exact hp

/-- On the elements of the set the comparison is that of a linear order, and it is the order of the set. -/
theorem C164_compare (l : List (Key N K)) (hl : Good l) (e : List (Key N K × Key N K))
    (he : keyframeSet l false = some e) :
    (∀ p ∈ e, pairCompare p p = .eq) ∧ e.Pairwise fun p q => pairCompare p q = .lt ∧ pairCompare q p = .gt := by
  have hk := sortKeys_asc hl.times
  simp only [keyframeSet, Bool.false_eq_true, if_false, Option.map_some, Option.some.injEq, insertAll_eq hk] at he
  subst he
  constructor
  · intro p hp
    have h := (pairs_lt hk hp).1
    simp [pairCompare, not_lt.2 h.le, h.ne']
  · refine List.Pairwise.imp_of_mem ?_ (pairs_pairwise hk)
    intro p q hp hq h
    have h1 := (pairs_lt hk hp).1
    have h2 := (pairs_lt hk hq).1
    have h3 : p.2.time < q.1.time ∨ p.2.time = q.1.time ∧ p.1.time < p.2.time := by
      rcases h.lt_or_eq with h | h
      · exact .inl h
      · exact .inr ⟨h, h1⟩
    have h4 : ¬(q.2.time < p.1.time ∨ q.2.time = p.1.time ∧ q.1.time < q.2.time) := by
      rintro (h5 | h5)
      · linarith
      · linarith [h5.1]
    simp only [pairCompare, h3, h4, if_true, if_false, and_self]

/-- The configuration between two neighbouring key frames goes along the line from one to the other, for every tree
that holds the set: the joints are those of the later key frame, and a joint that the earlier one lacks starts at
zero. -/
theorem C164_between (l : List (Key N K)) (hl : Good l) (s : Tree (Key N K × Key N K)) (hs : Holds s l false)
    (a b : Key N K) (hab : Next l a b) (off t : K) (h1 : a.time ≤ t + off) (h2 : t + off < b.time) :
    ∃ c, configAt s off t = some (some c) ∧ ∀ n, find? c n = (find? b.cfg n).map fun x =>
      AffineMap.lineMap ((find? a.cfg n).getD 0) x ((t + off - a.time) / (b.time - a.time)) := by
  have hk := sortKeys_asc hl.times
  have hse := holds_false hl hs
  obtain ⟨e, he, hm, -⟩ := C164_set l hl
  have hee : e = pairs (sortKeys l) := by
    simp only [keyframeSet, Bool.false_eq_true, if_false, Option.map_some, Option.some.injEq, insertAll_eq hk] at he
    exact he.symm
  subst hee
  have hf : pairFind s (t + off) = some (a, b) := by
    rw [pairFind_eq hk hse]
    cases hfe : (pairs (sortKeys l)).find? fun p => decide (p.1.time ≤ t + off ∧ t + off < p.2.time) with
    | none =>
      rw [List.find?_eq_none] at hfe
      have := hfe (a, b) ((hm a b).2 hab)
      simp [h1, h2] at this
    | some p =>
      have hp1 := List.mem_of_find?_eq_some hfe
      have hp2 : p.1.time ≤ t + off ∧ t + off < p.2.time := by simpa using List.find?_some hfe
      obtain ⟨ha', hb', _, hc'⟩ := (hm p.1 p.2).1 hp1
      obtain ⟨ha, hb, _, hc⟩ := hab
      have inj : ∀ x ∈ l, ∀ y ∈ l, x.time = y.time → x = y :=
        fun x hx y hy h => List.inj_on_of_nodup_map hl.times hx hy h
      have e1 : p.1 = a := by
        refine inj _ ha' _ ha (le_antisymm ?_ ?_)
        · rcases hc _ ha' with h | h
          · exact h
          · exact absurd (h.trans hp2.1) (not_le.2 h2)
        · rcases hc' _ ha with h | h
          · exact h
          · exact absurd (h.trans h1) (not_le.2 hp2.2)
      have e2 : p.2 = b := by
        refine inj _ hb' _ hb (le_antisymm ?_ ?_)
        · rcases hc' _ hb with h | h
          · exact absurd (h.trans hp2.1) (not_le.2 h2)
          · exact h
        · rcases hc _ hb' with h | h
          · exact absurd (h.trans h1) (not_le.2 hp2.2)
          · exact h
      rw [← e1, ← e2]
  have hne : b.time - a.time ≠ 0 := (sub_pos.2 hab.2.2.1).ne'
  obtain ⟨c, hc, hcf⟩ := find?_blend (t := t + off) hne a.cfg b.cfg [] (hl.maps b hab.2.1)
  refine ⟨c, by simp [configAt, hf, h1, h2.le, hc], fun n => ?_⟩
  rw [hcf n]
  cases find? b.cfg n with
  | none => simp [find?]
  | some x =>
    simp only [Option.map_some, find, AffineMap.lineMap_apply, vsub_eq_sub, vadd_eq_add, smul_eq_mul, Option.some.injEq]
    field_simp
    ring

/-- Nothing is returned, and no error signalled, before the first key frame and from the last one on; there is a
configuration everywhere else. -/
theorem C164_span (l : List (Key N K)) (hl : Good l) (s : Tree (Key N K × Key N K)) (hs : Holds s l false) (off t : K) :
    (configAt s off t = some none ↔ (∀ k ∈ l, t + off < k.time) ∨ ∀ k ∈ l, k.time ≤ t + off) ∧
    ((∃ c, configAt s off t = some (some c)) ↔ ∃ a ∈ l, ∃ b ∈ l, a.time ≤ t + off ∧ t + off < b.time) := by
  have hk := sortKeys_asc hl.times
  have hse := holds_false hl hs
  have hpos : (∃ a ∈ l, ∃ b ∈ l, a.time ≤ t + off ∧ t + off < b.time) → ∃ c, configAt s off t = some (some c) := by
    rintro ⟨a, ha, b, hb, h1, h2⟩
    obtain ⟨p, hp, h3, h4⟩ := exists_pair hk ((sortKeys_perm l).mem_iff.2 ha) ((sortKeys_perm l).mem_iff.2 hb) h1 h2
    have hm := pairs_mem hp
    have hlt := pairs_lt hk hp
    obtain ⟨c, hc, -⟩ := C164_between l hl s hs p.1 p.2 ⟨(sortKeys_perm l).mem_iff.1 hm.1,
      (sortKeys_perm l).mem_iff.1 hm.2, hlt.1, fun c hc => hlt.2 c ((sortKeys_perm l).mem_iff.2 hc)⟩ off t h3 h4
    exact ⟨c, hc⟩
  have hneg : ¬ (∃ a ∈ l, ∃ b ∈ l, a.time ≤ t + off ∧ t + off < b.time) → configAt s off t = some none := by
    intro h
    have : pairFind s (t + off) = none := by
      rw [pairFind_eq hk hse, List.find?_eq_none]
      intro p hp hc
      have hm := pairs_mem hp
      refine h ⟨p.1, (sortKeys_perm l).mem_iff.1 hm.1, p.2, (sortKeys_perm l).mem_iff.1 hm.2, by simpa using hc⟩
    simp [configAt, this]
  have hsame : ((∀ k ∈ l, t + off < k.time) ∨ ∀ k ∈ l, k.time ≤ t + off) ↔
      ¬ ∃ a ∈ l, ∃ b ∈ l, a.time ≤ t + off ∧ t + off < b.time := by
    constructor
    · rintro (h | h) ⟨a, ha, b, hb, h1, h2⟩
      · exact absurd h1 (not_le.2 (h a ha))
      · exact absurd h2 (not_lt.2 (h b hb))
    · intro h
      by_contra hc
      push Not at hc
      obtain ⟨⟨a, ha, h1⟩, b, hb, h2⟩ := hc
      exact h ⟨a, ha, b, hb, h1, h2⟩
  constructor
  · rw [hsame]
    refine ⟨fun h h' => ?_, hneg⟩
    obtain ⟨c, hc⟩ := hpos h'
    rw [hc] at h
    simp at h
  · refine ⟨fun ⟨c, hc⟩ => ?_, hpos⟩
    by_contra h
    rw [hneg h] at hc
    simp at hc

/-- At the time of a key frame that is not the last one the configuration is that of the key frame, provided the next
key frame has the same joints. -/
theorem C164_at_key_partial (l : List (Key N K)) (hl : Good l) (s : Tree (Key N K × Key N K)) (hs : Holds s l false)
    (a b : Key N K) (hab : Next l a b) (hn : ∀ n, (find? a.cfg n).isSome = (find? b.cfg n).isSome) (off : K) :
    ∃ c, configAt s off (a.time - off) = some (some c) ∧ ∀ n, find? c n = find? a.cfg n := by
  obtain ⟨c, hc, hf⟩ := C164_between l hl s hs a b hab off (a.time - off) (by simp) (by simpa using hab.2.2.1)
  refine ⟨c, hc, fun n => ?_⟩
  rw [hf n]
  have := hn n
  cases h1 : find? a.cfg n <;> cases h2 : find? b.cfg n <;> simp_all

/-- Joints stay within the limits that hold at all key frames. -/
theorem C164_limits (l : List (Key N K)) (hl : Good l) (s : Tree (Key N K × Key N K)) (hs : Holds s l false)
    (n : N) (lo hi : K) (h : ∀ k ∈ l, ∃ x, find? k.cfg n = some x ∧ lo ≤ x ∧ x ≤ hi) (off t : K) (c : Cfg N K)
    (hc : configAt s off t = some (some c)) : ∃ x, find? c n = some x ∧ lo ≤ x ∧ x ≤ hi := by
  obtain ⟨a, ha, b, hb, h1, h2⟩ := (C164_span l hl s hs off t).2.1 ⟨c, hc⟩
  have hk := sortKeys_asc hl.times
  obtain ⟨p, hp, h3, h4⟩ := exists_pair hk ((sortKeys_perm l).mem_iff.2 ha) ((sortKeys_perm l).mem_iff.2 hb) h1 h2
  have hm := pairs_mem hp
  have hlt := pairs_lt hk hp
  obtain ⟨c', hc', hf⟩ := C164_between l hl s hs p.1 p.2 ⟨(sortKeys_perm l).mem_iff.1 hm.1,
    (sortKeys_perm l).mem_iff.1 hm.2, hlt.1, fun c hc => hlt.2 c ((sortKeys_perm l).mem_iff.2 hc)⟩ off t h3 h4
  rw [hc] at hc'
  simp only [Option.some.injEq] at hc'
  subst hc'
  obtain ⟨x, hx, hx1, hx2⟩ := h p.1 ((sortKeys_perm l).mem_iff.1 hm.1)
  obtain ⟨y, hy, hy1, hy2⟩ := h p.2 ((sortKeys_perm l).mem_iff.1 hm.2)
  have hpos : 0 < p.2.time - p.1.time := sub_pos.2 hlt.1
  have hu : 0 ≤ (t + off - p.1.time) / (p.2.time - p.1.time) := div_nonneg (sub_nonneg.2 h3) hpos.le
  have hu1 : (t + off - p.1.time) / (p.2.time - p.1.time) ≤ 1 := by
    rw [div_le_one hpos]; linarith
  refine ⟨_, by rw [hf n, hy, hx]; rfl, ?_⟩
  simp only [Option.getD_some, AffineMap.lineMap_apply, vsub_eq_sub, vadd_eq_add, smul_eq_mul]
  generalize (t + off - p.1.time) / (p.2.time - p.1.time) = u at hu hu1
  constructor <;> nlinarith

/-- The order in which the key frames are listed does not matter. -/
theorem C164_order (l l' : List (Key N K)) (hl : Good l) (h : l.Perm l') (clip : Bool) :
    keyframeSet l clip = keyframeSet l' clip := by
  have h1 := sortKeys_asc hl.times
  have h2 : Asc (sortKeys l') := sortKeys_asc ((h.map Key.time).nodup_iff.1 hl.times)
  have : sortKeys l = sortKeys l' := by
    refine List.Perm.eq_of_pairwise (le := fun a b : Key N K => a.time < b.time) ?_ h1 h2
      ((sortKeys_perm l).trans (h.trans (sortKeys_perm l').symm))
    intro a b _ _ h3 h4
    exact absurd h3 (not_lt.2 h4.le)
  simp [keyframeSet, this]

/-- Clipping drops a standstill at the start and nothing else: there is a key frame such that all before it hold its
configuration, the animation starts there and is the same as without clipping from there on, and the joints move
after it. -/
theorem C164_clip (l : List (Key N K)) (hl : Good l) (h0 : l ≠ []) (s s' : Tree (Key N K × Key N K))
    (hs : Holds s l false) (hs' : Holds s' l true) :
    ∃ a b, Next l a b ∧ a.cfg ≠ b.cfg ∧ (∀ k ∈ l, k.time < a.time → k.cfg = a.cfg) ∧
      ∀ off t, (t + off < a.time → configAt s' off t = some none) ∧
        (a.time ≤ t + off → configAt s' off t = configAt s off t) := by
  have hk := sortKeys_asc hl.times
  have hse := holds_false hl hs
  unfold Holds keyframeSet at hs'
  simp only [if_true, Option.map_eq_some_iff] at hs'
  obtain ⟨k', hc, he⟩ := hs'
  obtain ⟨h1, -⟩ | ⟨p, a, b, r, h1, h2, h3, h4⟩ := clipLoop_some hc
  · exact absurd ((h1 ▸ sortKeys_perm l).symm.eq_nil) h0
  · subst h2
    have hk' : Asc (p ++ a :: b :: r) := h1 ▸ hk
    have hka : Asc (a :: b :: r) := asc_suffix hk'
    rw [insertAll_eq hka] at he
    have mem : ∀ x, x ∈ l ↔ x ∈ p ++ a :: b :: r := fun x => by rw [← h1]; exact (sortKeys_perm l).mem_iff.symm
    have hpa : ∀ x ∈ p, x.time < a.time := fun x hx => (List.pairwise_append.1 hk').2.2 x hx a (by simp)
    have hka' := List.pairwise_cons.1 hka
    refine ⟨a, b, ⟨(mem a).2 (by simp), (mem b).2 (by simp), hka'.1 b (by simp), ?_⟩, h4, ?_, ?_⟩
    · intro c hc
      rcases List.mem_append.1 ((mem c).1 hc) with h | h
      · exact .inl (hpa c h).le
      · rcases List.mem_cons.1 h with rfl | h
        · exact .inl le_rfl
        · rcases List.mem_cons.1 h with rfl | h
          · exact .inr le_rfl
          · exact .inr (List.rel_of_pairwise_cons hka'.2 h).le
    · intro c hc hct
      rcases List.mem_append.1 ((mem c).1 hc) with h | h
      · exact h3 c h
      · rcases List.mem_cons.1 h with rfl | h
        · rfl
        · exact absurd (hka'.1 c h) (not_lt.2 hct.le)
    · intro off t
      constructor
      · intro ht
        have : pairFind s' (t + off) = none := by
          rw [pairFind_eq hka he.symm, List.find?_eq_none]
          intro q hq hc
          have hq1 := (pairs_mem hq).1
          have hc' : q.1.time ≤ t + off ∧ t + off < q.2.time := by simpa using hc
          rcases List.mem_cons.1 hq1 with h | h
          · rw [h] at hc'; exact absurd hc'.1 (not_le.2 ht)
          · exact absurd ((hka'.1 _ h).le.trans hc'.1) (not_le.2 ht)
        simp [configAt, this]
      · intro ht
        have : pairFind s' (t + off) = pairFind s (t + off) := by
          rw [pairFind_eq hka he.symm, pairFind_eq hk hse, h1, find_suffix hk' ht]
        simp [configAt, this]

/-- Clipping fails exactly when nothing moves. -/
theorem C164_clip_error (l : List (Key N K)) :
    keyframeSet l true = none ↔ l ≠ [] ∧ ∀ a ∈ l, ∀ b ∈ l, a.cfg = b.cfg := by
  have hm : ∀ x, x ∈ sortKeys l ↔ x ∈ l := fun x => (sortKeys_perm l).mem_iff
  have hn : sortKeys l = [] ↔ l = [] := ⟨fun h => ((h ▸ sortKeys_perm l).symm.eq_nil), fun h => by subst h; rfl⟩
  simp only [keyframeSet, if_true, Option.map_eq_none_iff]
  constructor
  · intro h
    obtain ⟨h1, h2⟩ := clipLoop_none h
    exact ⟨fun h => h1 (hn.2 h), fun a ha b hb => h2 a ((hm a).2 ha) b ((hm b).2 hb)⟩
  · rintro ⟨h1, h2⟩
    exact clipLoop_same (fun h => h1 (hn.1 h)) fun a ha b hb => h2 a ((hm a).1 ha) b ((hm b).1 hb)

theorem frameLoop_eq (f : Nat → Option (Option (Cfg N K))) (c : Nat → Cfg N K) (file n : Nat)
    (h1 : ∀ i < n, f i = some (some (c i))) (h2 : f n = some none) :
    ∀ d i, i + d = n → ∀ k, d < k → frameLoop f file k i =
      some ((List.range' i d).map fun j => (file + j, c j)) := by
  intro d
  induction d with
  | zero =>
    intro i hi k hk
    obtain ⟨k, rfl⟩ : ∃ j, k = j + 1 := ⟨k - 1, by omega⟩
    simp only [Nat.add_zero] at hi
    subst hi
    simp [frameLoop, h2]
  | succ d ih =>
    intro i hi k hk
    obtain ⟨k, rfl⟩ : ∃ j, k = j + 1 := ⟨k - 1, by omega⟩
    simp only [frameLoop, h1 i (by omega), ih (i + 1) (by omega) k (by omega), List.range'_succ, List.map_cons,
      Option.map_some]

/-- An animation that starts at or after the first key frame ends by itself: there is one frame for each period that
starts before the last key frame, numbered without gaps from the first free number, and each shows the configuration
of its time. -/
theorem C164_frames [FloorSemiring K] (l : List (Key N K)) (hl : Good l) (s : Tree (Key N K × Key N K))
    (hs : Holds s l false) (a z : Key N K) (ha : a ∈ l) (hz : z ∈ l) (hlast : ∀ k ∈ l, k.time ≤ z.time)
    (start fps : K) (hstart : a.time ≤ start) (hfps : 0 < fps) (file : Nat) :
    ∃ c : Nat → Cfg N K, (∀ i < ⌈(z.time - start) * fps⌉₊, configAt s 0 (start + i / fps) = some (some (c i))) ∧
      ∀ k > ⌈(z.time - start) * fps⌉₊, timeAnimate (configAt s 0) start fps file k =
        some ((List.range ⌈(z.time - start) * fps⌉₊).map fun i => (file + i, c i)) := by
  have hi : ∀ i < ⌈(z.time - start) * fps⌉₊, ∃ c, configAt s 0 (start + i / fps) = some (some c) := by
    intro i hi
    rw [Nat.lt_ceil] at hi
    refine (C164_span l hl s hs 0 _).2.2 ⟨a, ha, z, hz, ?_, ?_⟩
    · have : (0 : K) ≤ i / fps := div_nonneg (Nat.cast_nonneg _) hfps.le
      linarith
    · have : (i : K) / fps < z.time - start := by rwa [div_lt_iff₀ hfps]
      linarith
  have hend : configAt s 0 (start + (⌈(z.time - start) * fps⌉₊ : Nat) / fps) = some none := by
    refine (C164_span l hl s hs 0 _).1.2 (.inr fun k hk => ?_)
    have h1 : (z.time - start) * fps ≤ (⌈(z.time - start) * fps⌉₊ : Nat) := Nat.le_ceil _
    rw [← le_div_iff₀ hfps] at h1
    have := hlast k hk
    linarith
  refine ⟨fun i => if h : i < ⌈(z.time - start) * fps⌉₊ then (hi i h).choose else [], ?_, ?_⟩
  · intro i h
    simp only [h, dif_pos]
    exact (hi i h).choose_spec
  · intro k hk
    unfold timeAnimate
    rw [List.range_eq_range']
    refine frameLoop_eq _ _ file ⌈(z.time - start) * fps⌉₊ ?_ ?_ _ 0 (by simp) k hk
    · intro i h
      simp only [h, dif_pos]
      have := (hi i h).choose_spec
      rw [mul_one_div]
      exact this
    · rw [mul_one_div]
      exact hend

theorem rows_data (parse : N → Option K) (pr : K → N) (hpr : ∀ x, parse (pr x) = some x) (names : List N)
    (hn : names.Nodup) (time : K) (dflt : Cfg N K) (hd : Wf dflt) (data : List (K × List K)) (i : Nat) :
    ∃ ks, rows parse names time none dflt i ((data.map fun d => pr d.1 :: d.2.map pr).map some) = some ks ∧
      List.Forall₂ (fun k d => k.time = d.1 ∧ (k.cfg.map Prod.fst).Nodup ∧
        ∀ n, find? k.cfg n = (find? (names.zip d.2) n).or (find? dflt n)) ks data := by
  induction data generalizing i with
  | nil => exact ⟨[], rfl, .nil⟩
  | cons d data ih =>
    obtain ⟨ks, hk, hf⟩ := ih (i + 1)
    refine ⟨⟨d.1, pairlist names d.2 dflt⟩ :: ks, ?_, .cons ⟨rfl, ?_, fun n => ?_⟩ hf⟩
    · have := mapM_print hpr (d.1 :: d.2)
      simp only [List.map_cons] at this
      simp only [List.map_cons, rows, this, Option.bind_some, row, hk, Option.map_some]
    · exact (foldl_wf _ _ hd).nodup
    · simp [pairlist, foldl_put _ _ (zip_fst_nodup hn d.2)]

/-- A file with a header of names and a column of times, with blank lines and comments anywhere, gives a key frame for
each line of data: its time, and for each name the number below it; other names are as in the default map. -/
theorem C164_load (isTime : N → Bool) (parse : N → Option K) (pr : K → N) (hpr : ∀ x, parse (pr x) = some x)
    (tm : N) (htm : isTime tm = true) (names : List N) (hn : names.Nodup) (time : K) (dflt : Cfg N K)
    (hd : dflt.Pairwise fun a b => a.1 < b.1) (data : List (K × List K)) (lines : List (Option (List N)))
    (h : lines.filterMap id = (tm :: names) :: data.map fun d => pr d.1 :: d.2.map pr) :
    ∃ ks, loadKeys isTime parse [] time none dflt lines = some ks ∧
      List.Forall₂ (fun k d => k.time = d.1 ∧ (k.cfg.map Prod.fst).Nodup ∧
        ∀ n, find? k.cfg n = (find? (names.zip d.2) n).or (find? dflt n)) ks data := by
  obtain ⟨r, h1, b, h2, h3⟩ := header_cut lines h
  have hh : header isTime lines = (names, r) := by
    rw [h3, header_blank isTime _ _ h2]
    simp [header, htm]
  simp only [loadKeys, hh]
  rw [rows_none, h1]
  exact rows_data parse pr hpr names hn time dflt hd data 0

/-- The same when the names are given and the file has no header. -/
theorem C164_load_names (isTime : N → Bool) (parse : N → Option K) (pr : K → N) (hpr : ∀ x, parse (pr x) = some x)
    (names : List N) (hn : names.Nodup) (h0 : names ≠ []) (time : K) (dflt : Cfg N K)
    (hd : dflt.Pairwise fun a b => a.1 < b.1) (data : List (K × List K)) (lines : List (Option (List N)))
    (h : lines.filterMap id = data.map fun d => pr d.1 :: d.2.map pr) :
    ∃ ks, loadKeys isTime parse names time none dflt lines = some ks ∧
      List.Forall₂ (fun k d => k.time = d.1 ∧ (k.cfg.map Prod.fst).Nodup ∧
        ∀ n, find? k.cfg n = (find? (names.zip d.2) n).or (find? dflt n)) ks data := by
  cases names with
  | nil => exact absurd rfl h0
  | cons w ws =>
    simp only [loadKeys]
    rw [rows_none, h]
    exact rows_data parse pr hpr _ hn time dflt hd data 0

/-- Any other row of numbers under given names, beyond a default map, and with a comment. -/
example : loadKeys (fun _ => false) (fun n : ℤ => some (n : ℚ)) [7, 8] 0 none [(5, 1)] [some [2, 3, 4], none, some [6, 1, 0]] =
    some [⟨2, [(5, 1), (7, 3), (8, 4)]⟩, ⟨6, [(5, 1), (7, 1), (8, 0)]⟩] := by decide +kernel

/-- Without blank lines after the header the lines of a file without times are a time step apart. -/
theorem C164_load_step_partial (isTime : N → Bool) (parse : N → Option K) (pr : K → N)
    (hpr : ∀ x, parse (pr x) = some x) (names : List N) (hn : names.Nodup) (hd : ∀ w ∈ names.head?, isTime w = false)
    (h0 : names ≠ []) (time step : K) (data : List (List K)) (blank : List (Option (List N)))
    (hb : ∀ e ∈ blank, e = none) :
    ∃ ks, loadKeys isTime parse [] time (some step) []
        (blank ++ some names :: data.map fun d => some (d.map pr)) = some ks ∧
      List.Forall₂ (fun k d => k.time = time + d.2 * step ∧ (k.cfg.map Prod.fst).Nodup ∧
        ∀ n, find? k.cfg n = find? (names.zip d.1) n) ks data.zipIdx := by
  have hh : header isTime (blank ++ some names :: data.map fun d => some (d.map pr)) =
      (names, data.map fun d => some (d.map pr)) := by
    rw [header_blank isTime _ _ hb]
    cases names with
    | nil => exact absurd rfl h0
    | cons w ws => simp [header, hd w (by simp)]
  simp only [loadKeys, hh]
  have key : ∀ (data : List (List K)) (i : Nat),
      ∃ ks, rows parse names time (some step) [] i (data.map fun d => some (d.map pr)) = some ks ∧
      List.Forall₂ (fun k d => k.time = time + d.2 * step ∧ (k.cfg.map Prod.fst).Nodup ∧
        ∀ n, find? k.cfg n = find? (names.zip d.1) n) ks (data.zipIdx i) := by
    intro data
    induction data with
    | nil => intro i; exact ⟨[], rfl, .nil⟩
    | cons d data ih =>
      intro i
      obtain ⟨ks, hk, hf⟩ := ih (i + 1)
      refine ⟨⟨time + (i : K) * step, pairlist names d []⟩ :: ks, ?_, .cons ⟨rfl, ?_, fun n => ?_⟩ hf⟩
      · simp only [List.map_cons, rows, mapM_print hpr d, Option.bind_some, row, hk, Option.map_some]
      · exact (foldl_wf _ _ (by simp [Wf])).nodup
      · have : ((names.zip d).map Prod.fst).Nodup := zip_fst_nodup hn d
        simp [pairlist, foldl_put _ _ this, find?]
  exact key data 0

/-- The last key frame is never shown: at its time there is no configuration, whatever the key frames. -/
theorem C164_last_violates (l : List (Key N K)) (hl : Good l) (s : Tree (Key N K × Key N K)) (hs : Holds s l false)
    (z : Key N K) (hlast : ∀ k ∈ l, k.time ≤ z.time) (off : K) : configAt s off (z.time - off) = some none :=
  (C164_span l hl s hs off _).1.2 (.inr fun k hk => by simpa using hlast k hk)

/-- An animation that is to start before the first key frame has no frames at all. -/
theorem C164_early_violates (l : List (Key N K)) (hl : Good l) (s : Tree (Key N K × Key N K)) (hs : Holds s l false)
    (start fps : K) (h : ∀ k ∈ l, start < k.time) (file k : Nat) :
    timeAnimate (configAt s 0) start fps file (k + 1) = some [] := by
  have : configAt s 0 start = some none := (C164_span l hl s hs 0 _).1.2 (.inl fun k hk => by simpa using h k hk)
  simp [timeAnimate, frameLoop, this]

/-- Three key frames, one of which is listed out of order. -/
def sample : List (Key Nat ℚ) := [⟨2, [(1, 4)]⟩, ⟨0, [(1, 0)]⟩, ⟨3, [(1, 2)]⟩]

def sampleTree : Tree (Key Nat ℚ × Key Nat ℚ) :=
  .node .nil (⟨0, [(1, 0)]⟩, ⟨2, [(1, 4)]⟩) (.node .nil (⟨2, [(1, 4)]⟩, ⟨3, [(1, 2)]⟩) .nil)

example : Good sample := ⟨by decide +kernel, by decide +kernel⟩
example : Holds sampleTree sample false := by unfold Holds; decide +kernel
example : configAt sampleTree 0 1 = some (some [(1, 2)]) := by decide +kernel
example : configAt sampleTree 0 2 = some (some [(1, 4)]) := by decide +kernel
example : configAt sampleTree 1 (3 / 2) = some (some [(1, 3)]) := by decide +kernel
example : configAt sampleTree 0 3 = some none := by decide +kernel
example : timeAnimate (configAt sampleTree 0) 0 1 7 10 = some [(7, [(1, 0)]), (8, [(1, 2)]), (9, [(1, 4)])] := by
  decide +kernel

/-- A standstill before the motion is clipped. -/
example : keyframeSet ([⟨0, [(1, 5)]⟩, ⟨1, [(1, 5)]⟩, ⟨2, [(1, 6)]⟩] : List (Key Nat ℚ)) true =
    some [(⟨1, [(1, 5)]⟩, ⟨2, [(1, 6)]⟩)] := by decide +kernel

/-- Clipping a trajectory that stands still is an error. -/
theorem C164_clip_violates : keyframeSet ([⟨0, [(1, 5)]⟩, ⟨1, [(1, 5)]⟩] : List (Key Nat ℚ)) true = none := by
  decide +kernel

/-- Joints that the next key frame does not mention are lost, even at the time of the key frame that sets them. -/
theorem C164_names_violates : ∃ (l : List (Key Nat ℚ)) (s : Tree (Key Nat ℚ × Key Nat ℚ)) (a b : Key Nat ℚ),
    Good l ∧ Holds s l false ∧ Next l a b ∧ find? a.cfg 1 = some 5 ∧
    ∃ c, configAt s 0 a.time = some (some c) ∧ find? c 1 = none := by
  refine ⟨[⟨0, [(1, 5)]⟩, ⟨1, [(2, 5)]⟩], .node .nil (⟨0, [(1, 5)]⟩, ⟨1, [(2, 5)]⟩) .nil, ⟨0, [(1, 5)]⟩, ⟨1, [(2, 5)]⟩,
    ⟨by decide +kernel, by decide +kernel⟩, by unfold Holds; decide +kernel, by unfold Next; decide +kernel, by decide +kernel,
    [(2, 0)], by decide +kernel, by decide +kernel⟩

/-- With two key frames at one time the motion after them is lost and asking for that time is an error. -/
theorem C164_times_violates : ∃ (l : List (Key Nat ℚ)) (s : Tree (Key Nat ℚ × Key Nat ℚ)), Holds s l false ∧
    ⟨2, [(1, 9)]⟩ ∈ l ∧ configAt s 0 1 = none ∧ configAt s 0 (3 / 2) = some none := by
  refine ⟨[⟨0, [(1, 0)]⟩, ⟨1, [(1, 5)]⟩, ⟨1, [(1, 6)]⟩, ⟨2, [(1, 9)]⟩],
    .node .nil (⟨0, [(1, 0)]⟩, ⟨1, [(1, 5)]⟩) (.node .nil (⟨1, [(1, 5)]⟩, ⟨1, [(1, 6)]⟩) .nil),
    by unfold Holds; decide +kernel, by decide +kernel, by decide +kernel, by decide +kernel⟩

/-- With a time step, a comment between two lines of data moves the later one in time. -/
theorem C164_load_violates :
    ∃ f g : List (Option (List ℤ)), f.filterMap id = g.filterMap id ∧
      (loadKeys (fun _ => false) (fun n : ℤ => some (n : ℚ)) [] 0 (some 1) [] f).map (fun l => l.map Key.time) = some [0, 1] ∧
      (loadKeys (fun _ => false) (fun n : ℤ => some (n : ℚ)) [] 0 (some 1) [] g).map (fun l => l.map Key.time) =
        some [0, 2] :=
  ⟨[some [7], some [3], some [4]], [some [7], some [3], none, some [4]], by decide +kernel, by decide +kernel, by decide +kernel⟩

/-- Times written in the file are taken for the first joint when a time step is given. -/
theorem C164_load_column_violates :
    (loadKeys (fun n => n == 0) (fun n : ℤ => some (n : ℚ)) [] 0 (some 1) [] [some [(0 : ℤ), 7], some [10, 3]]).map
      (fun l => l.map fun k => find? k.cfg 7) = some [some 10] := by decide +kernel

end Verif.Keyframe
