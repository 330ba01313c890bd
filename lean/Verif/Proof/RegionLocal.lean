import Verif.Model.RegionLocal
import Verif.Prop.RegionAll
import Mathlib.Data.List.Perm.Basic
import Mathlib.Tactic.Linarith

/-!
# Helper lemmas for thread-local regions (C137)

First the operations on a region are compared in two heaps, one of which has further blocks; then the
operations of a thread are compared in a world shared with other threads and alone.
-/

namespace Verif.RegionLocal

open Verif.Region

/-- Both runs succeed with related results, unless the right one is undefined or the left one
discarded. -/
def SimO {α β : Type} (R : α → β → Prop) (x : Out α) (y : Out β) : Prop :=
  y = .ub ∨ x = .oracle ∨ ∃ a b, x = .ok a ∧ y = .ok b ∧ R a b

theorem SimO.bind {α β γ δ : Type} {R : α → β → Prop} {S : γ → δ → Prop} {x : Out α} {y : Out β}
    {f : α → Out γ} {g : β → Out δ} (h : SimO R x y) (hf : ∀ a b, R a b → SimO S (f a) (g b)) :
    SimO S (x >>= f) (y >>= g) := by
  rcases h with h | h | ⟨a, b, h1, h2, h3⟩
  · exact Or.inl (by rw [h]; rfl)
  · exact Or.inr (Or.inl (by rw [h]; rfl))
  · rw [h1, h2]; exact hf a b h3

theorem SimO.ok {α β : Type} {R : α → β → Prop} {a : α} {b : β} (h : R a b) :
    SimO R (.ok a) (.ok b) := Or.inr (Or.inr ⟨a, b, rfl, rfl, h⟩)

theorem apart_symm {c d : Chunk} (h : c.apart d) : d.apart c := Or.symm h

/-- The left heap has the blocks of the right one and the blocks `rest`, apart from them. -/
def HRel (rest h1 h2 : List Chunk) : Prop :=
  h1.Perm (h2 ++ rest) ∧ ∀ c ∈ h2, ∀ d ∈ rest, c.apart d

theorem nodeAlloc_sim {rest h1 h2 : List Chunk} (h : HRel rest h1 h2) (n a : Nat) :
    SimO (fun x y => x.1 = y.1 ∧ HRel rest x.2 y.2) (nodeAlloc h1 n a) (nodeAlloc h2 n a) := by
  unfold nodeAlloc
  by_cases hc : 0 < a ∧ ∀ d ∈ h1, (Chunk.mk (a + HDR) (n + ALIGN)).apart d
  · have hc2 : 0 < a ∧ ∀ d ∈ h2, (Chunk.mk (a + HDR) (n + ALIGN)).apart d :=
      ⟨hc.1, fun d hd => hc.2 d (h.1.mem_iff.2 (List.mem_append_left _ hd))⟩
    rw [if_pos hc, if_pos hc2]
    refine SimO.ok ⟨rfl, h.1.cons _, ?_⟩
    intro c hm d hd
    rcases List.mem_cons.1 hm with rfl | hm
    · exact hc.2 d (h.1.mem_iff.2 (List.mem_append_right _ hd))
    · exact h.2 c hm d hd
  · exact Or.inr (Or.inl (if_neg hc))

theorem nodeFree_sim {rest h1 h2 : List Chunk} (h : HRel rest h1 h2) (c : Chunk) :
    SimO (HRel rest) (nodeFree h1 c) (nodeFree h2 c) := by
  unfold nodeFree
  by_cases hc : c ∈ h2
  · rw [if_pos hc, if_pos (h.1.mem_iff.2 (List.mem_append_left _ hc))]
    refine SimO.ok ⟨?_, fun d hd => h.2 d (List.mem_of_mem_erase hd)⟩
    have := h.1.erase c
    rwa [List.erase_append_left _ hc] at this
  · exact Or.inl (if_neg hc)

theorem freeAll_sim {rest : List Chunk} : ∀ (cs h1 h2 : List Chunk), HRel rest h1 h2 →
    SimO (HRel rest) (freeAll h1 cs) (freeAll h2 cs)
  | [], _, _, h => SimO.ok h
  | c :: cs, _, _, h => (nodeFree_sim h c).bind fun h1' h2' h' => freeAll_sim cs h1' h2' h'

/-- The left region is the right one in a heap with further blocks. -/
def RRel (rest : List Chunk) (r1 r2 : Reg) : Prop :=
  r1.head = r2.head ∧ r1.node = r2.node ∧ HRel rest r1.heap r2.heap

theorem RRel.mk' {rest h1 h2 : List Chunk} (head : Nat) (node : List Chunk) (h : HRel rest h1 h2) :
    RRel rest ⟨head, node, h1⟩ ⟨head, node, h2⟩ := ⟨rfl, rfl, h⟩

theorem grow_sim {rest : List Chunk} {r1 r2 : Reg} (h : RRel rest r1 r2) (size a : Nat) :
    SimO (RRel rest) (grow r1 size a) (grow r2 size a) := by
  obtain ⟨hd, nd, h1⟩ := r1
  obtain ⟨hd2, nd2, h2⟩ := r2
  obtain ⟨rfl, rfl, h⟩ := h
  simp only at h
  unfold grow
  cases nd with
  | nil => exact Or.inl rfl
  | cons c cs =>
    dsimp only
    split_ifs
    · refine (nodeFree_sim h c).bind fun a1 a2 ha => (nodeAlloc_sim ha _ a).bind ?_
      rintro ⟨x, hx⟩ ⟨y, hy⟩ ⟨rfl, hxy⟩
      exact SimO.ok (RRel.mk' _ _ hxy)
    · refine (nodeAlloc_sim h _ a).bind ?_
      rintro ⟨x, hx⟩ ⟨y, hy⟩ ⟨rfl, hxy⟩
      exact SimO.ok (RRel.mk' _ _ hxy)

/-- Related regions and the same returned pointer. -/
def PRel (rest : List Chunk) (x y : Reg × Nat) : Prop := RRel rest x.1 y.1 ∧ x.2 = y.2

theorem tmpalloc_sim {rest : List Chunk} {r1 r2 : Reg} (h : RRel rest r1 r2) (size a : Nat) :
    SimO (PRel rest) (tmpalloc r1 size a) (tmpalloc r2 size a) := by
  have hg := grow_sim h size a
  obtain ⟨hd, nd, h1⟩ := r1
  obtain ⟨hd2, nd2, h2⟩ := r2
  obtain ⟨rfl, rfl, h⟩ := h
  simp only at h hg
  unfold tmpalloc
  cases nd with
  | nil => exact Or.inl rfl
  | cons c cs =>
    dsimp only
    split_ifs
    · exact hg.bind fun x y hxy => SimO.ok ⟨hxy, hxy.1⟩
    · exact SimO.ok ⟨RRel.mk' _ _ h, rfl⟩

theorem alloc_sim {rest : List Chunk} {r1 r2 : Reg} (h : RRel rest r1 r2) (size a : Nat) :
    SimO (PRel rest) (alloc r1 size a) (alloc r2 size a) := by
  have hg := grow_sim h size a
  obtain ⟨hd, nd, h1⟩ := r1
  obtain ⟨hd2, nd2, h2⟩ := r2
  obtain ⟨rfl, rfl, h⟩ := h
  simp only at h hg
  unfold alloc
  cases nd with
  | nil => exact Or.inl rfl
  | cons c cs =>
    dsimp only
    split_ifs
    · exact hg.bind fun x y hxy => SimO.ok ⟨⟨by rw [hxy.1], hxy.2.1, hxy.2.2⟩, hxy.1⟩
    · exact SimO.ok ⟨RRel.mk' _ _ h, rfl⟩

theorem popLoop_sim {rest : List Chunk} (ptr : Nat) : ∀ (cs : List Chunk) (n : Nat) (h1 h2 : List Chunk),
    HRel rest h1 h2 → SimO (fun x y => x.1 = y.1 ∧ x.2.1 = y.2.1 ∧ HRel rest x.2.2 y.2.2)
      (popLoop h1 ptr n cs) (popLoop h2 ptr n cs)
  | [], n, _, _, h => SimO.ok ⟨rfl, rfl, h⟩
  | c :: cs, n, h1, h2, h => by
    unfold popLoop
    split_ifs
    · exact SimO.ok ⟨rfl, rfl, h⟩
    · exact (nodeFree_sim h c).bind fun a1 a2 ha => popLoop_sim ptr cs _ a1 a2 ha

theorem pop_sim {rest : List Chunk} {r1 r2 : Reg} (h : RRel rest r1 r2) (ptr a : Nat) :
    SimO (RRel rest) (pop r1 ptr a) (pop r2 ptr a) := by
  obtain ⟨hd, nd, h1⟩ := r1
  obtain ⟨hd2, nd2, h2⟩ := r2
  obtain ⟨rfl, rfl, h⟩ := h
  simp only at h
  unfold pop
  cases nd with
  | nil => exact Or.inl rfl
  | cons c cs =>
    dsimp only
    split_ifs
    · exact SimO.ok (RRel.mk' _ _ h)
    · refine (nodeFree_sim h c).bind fun a1 a2 ha => (popLoop_sim ptr cs c.size a1 a2 ha).bind ?_
      rintro ⟨n, p, b1⟩ ⟨m, q, b2⟩ ⟨rfl, rfl, hb⟩
      simp only at hb
      cases p with
      | nil =>
        dsimp only
        refine (nodeAlloc_sim hb _ a).bind ?_
        rintro ⟨x, hx⟩ ⟨y, hy⟩ ⟨rfl, hxy⟩
        exact SimO.ok (RRel.mk' _ _ hxy)
      | cons q qs =>
        dsimp only
        split_ifs
        · refine (nodeFree_sim hb q).bind fun d1 d2 hd => (nodeAlloc_sim hd _ a).bind ?_
          rintro ⟨x, hx⟩ ⟨y, hy⟩ ⟨rfl, hxy⟩
          exact SimO.ok (RRel.mk' _ _ hxy)
        · refine (nodeAlloc_sim hb _ a).bind ?_
          rintro ⟨x, hx⟩ ⟨y, hy⟩ ⟨rfl, hxy⟩
          exact SimO.ok (RRel.mk' _ _ hxy)

theorem release_sim {rest : List Chunk} {r1 r2 : Reg} (h : RRel rest r1 r2) (a : Nat) :
    SimO (RRel rest) (release r1 a) (release r2 a) := by
  obtain ⟨hd, nd, h1⟩ := r1
  obtain ⟨hd2, nd2, h2⟩ := r2
  obtain ⟨rfl, rfl, h⟩ := h
  simp only at h
  unfold release
  rcases nd with _ | ⟨c, _ | ⟨d, cs⟩⟩
  · exact Or.inl rfl
  · exact SimO.ok (RRel.mk' _ _ h)
  · dsimp only
    refine (freeAll_sim (c :: d :: cs) h1 h2 h).bind fun d1 d2 hd => (nodeAlloc_sim hd _ a).bind ?_
    rintro ⟨x, hx⟩ ⟨y, hy⟩ ⟨rfl, hxy⟩
    exact SimO.ok (RRel.mk' _ _ hxy)

theorem regOp_sim {rest : List Chunk} {r1 r2 : Reg} (h : RRel rest r1 r2) (o : ROp) :
    SimO (PRel rest) (regOp r1 o) (regOp r2 o) := by
  cases o with
  | alloc size a => exact alloc_sim h size a
  | tmpalloc size a => exact tmpalloc_sim h size a
  | pop ptr a => exact (pop_sim h ptr a).bind fun x y hxy => SimO.ok ⟨hxy, rfl⟩
  | release a => exact (release_sim h a).bind fun x y hxy => SimO.ok ⟨hxy, rfl⟩

theorem regOp_weak {r : Reg} (h : Weak r) (o : ROp) :
    regOp r o = .oracle ∨ ∃ r' p, regOp r o = .ok (r', p) ∧ Weak r' := by
  cases o with
  | alloc size a => exact alloc_weak h size a
  | tmpalloc size a =>
    rcases tmpalloc_weak h size a with h' | ⟨r', h', hw, -⟩
    · exact Or.inl h'
    · exact Or.inr ⟨r', _, h', hw⟩
  | pop ptr a =>
    rcases pop_weak h ptr a with h' | ⟨r', h', hw⟩
    · exact Or.inl (by simp [regOp, h'])
    · exact Or.inr ⟨r', 0, by simp [regOp, h'], hw⟩
  | release a =>
    rcases release_weak h a with h' | ⟨r', c, h', hw, -⟩
    · exact Or.inl (by simp [regOp, h'])
    · exact Or.inr ⟨r', 0, by simp [regOp, h'], hw⟩

end Verif.RegionLocal
