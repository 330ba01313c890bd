import Verif.Model.Pool
import Verif.Prop.Region

namespace Verif.Pool
open Verif.Region (Out Blk Reg Inv keep)

theorem perm_eraseIdx {α} {l : List α} {k : Nat} {p : α} (h : l[k]? = some p) : (p :: l.eraseIdx k).Perm l := by
  induction l generalizing k with
  | nil => simp at h
  | cons x l ih =>
    cases k with
    | zero => simp at h; subst h; simp
    | succ k => exact (List.Perm.swap _ _ _).trans ((ih (by simpa using h)).cons x)

/-- The free list stored in memory: `top` heads the chain `fl`. -/
def Chain (m : Nat → Nat) : Nat → List Nat → Prop
  | t, [] => t = 0
  | t, p :: fl => t = p ∧ p ≠ 0 ∧ Chain m (m p) fl

theorem Chain.congr {m m' : Nat → Nat} {t : Nat} {fl : List Nat} (h : Chain m t fl)
    (he : ∀ p ∈ fl, m' p = m p) : Chain m' t fl := by
  induction fl generalizing t with
  | nil => exact h
  | cons p fl ih =>
    obtain ⟨h1, h2, h3⟩ := h
    refine ⟨h1, h2, ?_⟩
    rw [he p (by simp)]
    exact ih h3 (fun q hq => he q (List.mem_cons_of_mem _ hq))

structure PInv (al : Prop) (s : St) (fl : List Nat) : Prop where
  ex : ∃ stk : List Blk, Inv al ⟨s.pool.reg, stk⟩ ∧ (∀ b ∈ stk, b.size = s.pool.size) ∧
    (s.out ++ fl).Perm (stk.map Blk.addr)
  size : 16 ≤ s.pool.size
  chain : Chain s.pool.mem s.pool.top fl

/-- All known blocks (outstanding or free) are separate and nonzero. -/
theorem PInv.sep {al s fl} (h : PInv al s fl) :
    (s.out ++ fl).Pairwise (fun p q => p + s.pool.size ≤ q ∨ q + s.pool.size ≤ p) ∧
    (∀ p ∈ s.out ++ fl, p ≠ 0 ∧ Region.Owned s.pool.reg p s.pool.size) := by
  obtain ⟨stk, hI, hsz, hperm⟩ := h.ex
  have hpw := hI.stk.pairwise hI.ok
  constructor
  · refine hperm.symm.pairwise (R := fun p q => p + s.pool.size ≤ q ∨ q + s.pool.size ≤ p) ?_ ?_
    · rw [List.pairwise_map]
      refine (List.Pairwise.and_mem.1 hpw).imp ?_
      rintro a b ⟨ha, hb, hd⟩
      simpa only [Region.Disj, hsz a ha, hsz b hb] using hd
    · intro x y h; omega
  · intro p hp
    obtain ⟨b, hb, rfl⟩ := List.mem_map.1 (hperm.mem_iff.1 hp)
    obtain ⟨c, hc, h1, h2, _⟩ := hI.stk.mem hb
    have := Region.align_ge c.base
    have hpos := hI.ok.pos c hc
    refine ⟨?_, c, hI.perm.mem_iff.2 hc, by omega, ?_⟩
    · simp only [Region.HDR] at hpos; omega
    · rw [← hsz b hb]; exact h2

/-- The abstract effect on the free stack. -/
def freeStk (s : St) (fl : List Nat) : Op → List Nat
  | .alloc _ => fl.tail
  | .free k => match s.out[k]? with
    | none => fl
    | some p => p :: fl
  | .write _ _ _ => fl
  | .release _ => []

/-- Oracle addresses usable by the region underneath. -/
def Op.addr : Op → Nat
  | .alloc a => a
  | .release a => a
  | _ => 0

def Op.isRelease : Op → Bool
  | .release _ => true
  | _ => false

theorem step_spec {al s fl} (h : PInv al s fl) (op : Op) (ha : al → 16 ∣ op.addr)
    (hr : op.isRelease = true → al) :
    step s op = .oracle ∨ ∃ s', step s op = .ok s' ∧ PInv al s' (freeStk s fl op) := by
  have hsep := h.sep
  have h' := h
  obtain ⟨⟨stk, hI, hsz, hperm⟩, hsize, hch⟩ := h
  obtain ⟨⟨size, top, mem, reg⟩, out⟩ := s
  dsimp only at *
  cases op with
  | alloc a =>
    cases fl with
    | nil =>
      have ht : top = 0 := hch
      rcases Region.alloc_spec hI size a ha with h | ⟨r, p, h, hIr, _⟩
      · left; simp [step, alloc, ht, h]
      · right
        refine ⟨⟨⟨size, top, mem, r⟩, p :: out⟩, by simp [step, alloc, ht, h], ⟨⟨p, size⟩ :: stk, ?_, ?_, ?_⟩,
          hsize, by simpa [freeStk, Chain] using ht⟩
        · have hk : keep r ⟨p, size⟩ stk = ⟨p, size⟩ :: stk := by
            have : 0 < size := by omega
            simp [keep, this]
          rw [hk] at hIr; exact hIr
        · intro b hb
          rcases List.mem_cons.1 hb with rfl | hb
          · rfl
          · exact hsz b hb
        · simpa [freeStk] using hperm
    | cons q fl =>
      obtain ⟨rfl, h0, hch⟩ := hch
      right
      refine ⟨⟨⟨size, mem top, mem, reg⟩, top :: out⟩, by simp [step, alloc, h0], ⟨stk, hI, hsz, ?_⟩, hsize, hch⟩
      exact List.perm_middle.symm.trans hperm
  | free k =>
    right
    cases hk : out[k]? with
    | none =>
      exact ⟨⟨⟨size, top, mem, reg⟩, out⟩, by simp [step, hk], by simpa [freeStk, hk] using h'⟩
    | some p =>
      have hp1 : (p :: out.eraseIdx k).Perm out := perm_eraseIdx hk
      have hpm : p ∈ out := List.mem_of_getElem? hk
      refine ⟨⟨⟨size, p, store mem p top, reg⟩, out.eraseIdx k⟩, by simp [step, hk, free],
        ⟨stk, hI, hsz, ?_⟩, hsize, ?_⟩
      · simp only [freeStk, hk]
        refine List.perm_middle.trans ?_
        exact (List.Perm.append_right fl hp1).trans hperm
      · simp only [freeStk, hk, Chain]
        refine ⟨trivial, (hsep.2 p (List.mem_append_left _ hpm)).1, ?_⟩
        simp only [store, if_true]
        refine hch.congr ?_
        intro q hq
        have := (List.pairwise_append.1 hsep.1).2.2 p hpm q hq
        have hne : q ≠ p := by omega
        simp [store, hne]
  | write k off v =>
    right
    cases hk : out[k]? with
    | none => exact ⟨⟨⟨size, top, mem, reg⟩, out⟩, by simp [step, hk], h'⟩
    | some p =>
      by_cases ho : off < size
      · have hpm : p ∈ out := List.mem_of_getElem? hk
        refine ⟨⟨⟨size, top, store mem (p + off) v, reg⟩, out⟩, by simp [step, hk, ho],
          ⟨stk, hI, hsz, hperm⟩, hsize, ?_⟩
        refine hch.congr ?_
        intro q hq
        have := (List.pairwise_append.1 hsep.1).2.2 p hpm q hq
        have hne : q ≠ p + off := by omega
        simp [store, hne]
      · exact ⟨⟨⟨size, top, mem, reg⟩, out⟩, by simp [step, hk, ho], h'⟩
  | release a =>
    rcases Region.release_spec hI (hr rfl) a ha with h | ⟨r, h, hIr, _⟩
    · left; simp [step, release, h]
    · right
      exact ⟨⟨⟨size, 0, mem, r⟩, []⟩, by simp [step, release, h],
        ⟨⟨[], hIr, by simp, by simp [freeStk]⟩, hsize, by simp [freeStk, Chain]⟩⟩

theorem run_spec {al s fl} (h : PInv al s fl) (ops : List Op) (ha : ∀ op ∈ ops, al → 16 ∣ op.addr)
    (hr : ∀ op ∈ ops, op.isRelease = true → al) :
    run s ops = .oracle ∨ ∃ s' fl', run s ops = .ok s' ∧ PInv al s' fl' := by
  induction ops generalizing s fl with
  | nil => exact .inr ⟨s, fl, rfl, h⟩
  | cons op ops ih =>
    rcases step_spec h op (ha op (by simp)) (hr op (by simp)) with h1 | ⟨s1, h1, hI⟩
    · left; simp [run, h1]
    · rcases ih hI (fun o ho => ha o (List.mem_cons_of_mem _ ho))
        (fun o ho => hr o (List.mem_cons_of_mem _ ho)) with h2 | ⟨s2, fl2, h2, hI2⟩
      · left; simp [run, h1, h2]
      · right; exact ⟨s2, fl2, by simp [run, h1, h2], hI2⟩

theorem start_spec {al : Prop} (size count : Nat) (mem : Nat → Nat) (a : Nat) (h0 : al → 16 ∣ a) (ops : List Op)
    (ha : ∀ op ∈ ops, al → 16 ∣ op.addr) (hr : ∀ op ∈ ops, op.isRelease = true → al) :
    start size count mem a ops = .oracle ∨
      ∃ s fl, start size count mem a ops = .ok s ∧ PInv al s fl := by
  rcases Region.init_spec (al := al) (max size 16 * count) a h0 with h | ⟨r, h, hI⟩
  · left; simp [start, init, h]
  · have hP : PInv al ⟨⟨max size 16, 0, mem, r⟩, []⟩ [] :=
      ⟨⟨[], hI, by simp, by simp⟩, Nat.le_max_right _ _, rfl⟩
    rcases run_spec hP ops ha hr with h2 | ⟨s, fl, h2, hI2⟩
    · left; simp [start, init, h, h2]
    · right; exact ⟨s, fl, by simp [start, init, h, h2], hI2⟩

end Verif.Pool
