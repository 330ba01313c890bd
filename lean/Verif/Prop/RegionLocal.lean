import Verif.Proof.RegionLocal
import Mathlib.Data.List.Dedup

/-!
# C137: thread-local regions
-/

namespace Verif.RegionLocal

open Verif.Region

/-! ## Specification: every thread has a region of its own -/

/-- What a thread has: nothing, or the address of its structure and its region. -/
abbrev Priv := Option (Nat × Reg)

/-- The region a thread gets when it asks for one: the one it has, or a new one of 256 kB. -/
def privGet (p : Priv) (s a : Nat) : Out (Nat × Reg) :=
  match p with
  | some x => .ok x
  | none => do let r ← init 262144 a; return (s, r)

/-- One operation of a thread on its own region, and the returned pointer. -/
def privStep (p : Priv) : TOp → Out (Priv × Nat)
  | .get s a => do let x ← privGet p s a; return (some x, x.1)
  | .init size s a => do let r ← init size a; return (some (s, r), 0)
  | .destroy => .ok (none, 0)
  | .op s a o => do
    let x ← privGet p s a
    let y ← regOp x.2 o
    return (some (x.1, y.1), y.2)
  | .exit => .ok (none, 0)

/-- All operations of one thread. -/
def privRun (p : Priv) : List TOp → Out (Priv × List Nat)
  | [] => .ok (p, [])
  | o :: l => do
    let x ← privStep p o
    let y ← privRun x.1 l
    return (y.1, x.2 :: y.2)

/-- What a thread owns in the heap: the chunks of its region and the structure. -/
def own : Priv → List Chunk
  | none => []
  | some (s, r) => r.heap ++ [structBlk s]

/-- What of a thread's region is in shared memory. -/
def view (w : World) (t : Nat) : Option (Nat × Nat × List Chunk) :=
  (w.slot t).bind fun s => (w.regs s).map fun hn => (s, hn.1, hn.2)

/-- The same of a thread's own region. -/
def privView : Priv → Option (Nat × Nat × List Chunk)
  | none => none
  | some (s, r) => some (s, r.head, r.node)

/-! ## Proof -/

/-- Thread `t` of world `w` has `p`, and the other allocated blocks are `rest`. -/
def Rel (t : Nat) (w : World) (rest : List Chunk) : Priv → Prop
  | none => w.slot t = none ∧ w.heap.Perm rest
  | some (s, r) => w.slot t = some s ∧ w.once = true ∧ 0 < s ∧ w.regs s = some (r.head, r.node) ∧ Weak r ∧
      HRel (structBlk s :: rest) w.heap r.heap ∧ ∀ d ∈ rest, (structBlk s).apart d

/-- What a step does to the rest of the world. -/
def Keeps (t : Nat) (rest : List Chunk) (w w' : World) : Prop :=
  (∀ u, u ≠ t → w'.slot u = w.slot u) ∧ (∀ x, 0 < x → structBlk x ∈ rest → w'.regs x = w.regs x) ∧
    (w.once = true → w'.once = true)

theorem Keeps.trans {t : Nat} {rest : List Chunk} {w w' w'' : World} (h : Keeps t rest w w')
    (h' : Keeps t rest w' w'') : Keeps t rest w w'' :=
  ⟨fun u hu => (h'.1 u hu).trans (h.1 u hu), fun x hx hm => (h'.2.1 x hx hm).trans (h.2.1 x hx hm),
    fun ho => h'.2.2 (h.2.2 ho)⟩

theorem struct_ne {s x : Nat} (h : (structBlk s).apart (structBlk x)) : x ≠ s := by
  rintro rfl
  simp only [structBlk, Chunk.apart, HDR] at h
  omega

theorem destroy_rel {t : Nat} {w : World} {rest : List Chunk} {p : Priv} (h : Rel t w rest p) :
    ∃ w', localRegionDestroy w (w.slot t) = .ok w' ∧ w'.heap.Perm rest ∧ w'.slot = w.slot ∧
      w'.once = w.once ∧ Keeps t rest w w' := by
  cases p with
  | none =>
    obtain ⟨h1, h2⟩ := h
    exact ⟨w, by rw [h1]; rfl, h2, rfl, rfl, fun _ _ => rfl, fun _ _ _ => rfl, id⟩
  | some x =>
    obtain ⟨s, r⟩ := x
    obtain ⟨h1, h2, h0, h3, h4, h5, h6⟩ := h
    have hf := freeAll_sim r.node w.heap r.heap h5
    rw [freeAll_spec h4.perm] at hf
    rcases hf with hf | hf | ⟨a, b, ha, hb, hab⟩
    · cases hf
    · exfalso
      revert hf
      generalize w.heap = hh
      generalize r.node = nn
      induction nn generalizing hh with
      | nil => intro hf; cases hf
      | cons c cs ih =>
        intro hf
        rw [freeAll, nodeFree] at hf
        by_cases hc : c ∈ hh
        · rw [if_pos hc] at hf; exact ih _ hf
        · rw [if_neg hc] at hf; cases hf
    · obtain rfl : ([] : List Chunk) = b := by simpa using hb
      have hm : structBlk s ∈ a := hab.1.mem_iff.2 (by simp)
      refine ⟨{ w with heap := a.erase (structBlk s), regs := fun x => if x = s then none else w.regs x },
        ?_, ?_, rfl, rfl, fun _ _ => rfl, ?_, id⟩
      · rw [h1]
        simp only [localRegionDestroy, h3, destroy, ha, Out.bind_ok, Out.pure_eq, nodeFree, if_pos hm]
      · have := hab.1.erase (structBlk s)
        simpa using this
      · intro x hx hm
        exact if_neg (struct_ne (h6 _ hm))

theorem init_rel {t : Nat} {w : World} {rest : List Chunk} {p : Priv} (h : Rel t w rest p)
    (size s a : Nat) :
    localInit w t size s a = .oracle ∨ ∃ w' r, localInit w t size s a = .ok w' ∧ init size a = .ok r ∧
      Rel t w' rest (some (s, r)) ∧ Keeps t rest w w' := by
  have h' : Rel t { w with once := true } rest p := by
    cases p with
    | none => exact h
    | some x => exact ⟨h.1, rfl, h.2.2⟩
  obtain ⟨w1, e1, hp1, hs1, ho1, hk1⟩ := destroy_rel h'
  unfold localInit localRegionGet
  simp only at e1 ⊢
  rw [e1]
  simp only [Out.bind_ok]
  by_cases hc : 0 < s ∧ ∀ d ∈ w1.heap, (structBlk s).apart d
  · simp only [structAlloc, if_pos hc, Out.bind_ok, regionInit]
    have hr : HRel (structBlk s :: rest) (structBlk s :: w1.heap) [] :=
      ⟨by simpa using hp1, fun c hc => by simp at hc⟩
    have hna := nodeAlloc_sim hr size a
    rcases nodeAlloc_cases [] size a with h0 | ⟨h0, -⟩
    · rcases hna with hu | hu | ⟨x, y, -, hy, -⟩
      · rw [h0] at hu; cases hu
      · left; rw [hu]; rfl
      · rw [h0] at hy; cases hy
    · rcases hna with hu | hu | ⟨x, y, hx, hy, hxy⟩
      · rw [h0] at hu; cases hu
      · left; rw [hu]; rfl
      · right
        rw [h0] at hy
        obtain ⟨x1, x2⟩ := x
        obtain ⟨y1, y2⟩ := y
        have e : (Chunk.mk (a + HDR) (size + ALIGN), [Chunk.mk (a + HDR) (size + ALIGN)]) = (y1, y2) := by
          simpa using hy
        obtain ⟨rfl, rfl⟩ := Prod.mk.inj e
        obtain ⟨rfl, hxy⟩ := hxy
        have hh : nodeAlloc (structBlk s :: w1.heap) size a
            = .ok (⟨a + HDR, size + ALIGN⟩, x2) := hx
        refine ⟨⟨w1.once, fun u => if u = t then some s else w1.slot u,
            fun x => if x = s then some (align (a + HDR), [⟨a + HDR, size + ALIGN⟩]) else w1.regs x, x2⟩,
          ⟨align (a + HDR), [⟨a + HDR, size + ALIGN⟩], [⟨a + HDR, size + ALIGN⟩]⟩, ?_, ?_, ?_, ?_⟩
        · rw [hh]
          simp only [Out.bind_ok, Out.pure_eq, setSpecific, ho1, if_true]
        · simp only [init, h0, Out.bind_ok, Out.pure_eq]
        · refine ⟨by simp, ho1, hc.1, by simp, ?_, hxy, fun d hd => hc.2 d (hp1.mem_iff.2 hd)⟩
          exact Weak.cons (List.Perm.refl []) ⟨List.Pairwise.nil, by simp⟩ h0 _ (align_ge _)
        · refine ⟨fun u hu => ?_, fun x hx hm => ?_, fun _ => ho1⟩
          · simp only [if_neg hu, hs1]
          · simp only
            rw [if_neg (struct_ne (hc.2 _ (hp1.mem_iff.2 hm)))]
            exact hk1.2.1 x hx hm
  · left
    simp only [structAlloc, if_neg hc]
    rfl

theorem get_rel {t : Nat} {w : World} {rest : List Chunk} {p : Priv} (h : Rel t w rest p) (s a : Nat) :
    localGet w t s a = .oracle ∨ ∃ w' x, localGet w t s a = .ok (w', some x.1) ∧
      privGet p s a = .ok x ∧ Rel t w' rest (some x) ∧ Keeps t rest w w' := by
  cases p with
  | some x =>
    right
    refine ⟨{ w with once := true }, x, ?_, rfl, ⟨h.1, rfl, h.2.2⟩, fun _ _ => rfl, fun _ _ _ => rfl, fun _ => rfl⟩
    have : w.slot t = some x.1 := h.1
    simp only [localGet, localRegionGet, this]
  | none =>
    have h' : Rel t { w with once := true } rest none := h
    have hs : w.slot t = none := h.1
    rcases init_rel h' (4096 * 64) s a with e | ⟨w', r, e, hi, hr, hk⟩
    · left
      simp only [localGet, localRegionGet, hs, e]
      rfl
    · right
      refine ⟨w', (s, r), ?_, ?_, hr, hk.1, hk.2.1, fun _ => hk.2.2 rfl⟩
      · simp only [localGet, localRegionGet, hs, e, Out.bind_ok, Out.pure_eq]
        rw [show w'.slot t = some s from hr.1]
      · have hi : init 262144 a = .ok r := hi
        simp only [privGet, hi, Out.bind_ok, Out.pure_eq]

theorem step_rel {t : Nat} {w : World} {rest : List Chunk} {p : Priv} (h : Rel t w rest p) (o : TOp) :
    step w t o = .oracle ∨ ∃ w' p' q, step w t o = .ok (w', q) ∧ privStep p o = .ok (p', q) ∧
      Rel t w' rest p' ∧ Keeps t rest w w' := by
  cases o with
  | get s a =>
    rcases get_rel h s a with e | ⟨w', x, e, hg, hr, hk⟩
    · left; simp only [step, e]; rfl
    · right
      exact ⟨w', some x, x.1, by simp only [step, e, Out.bind_ok, Out.pure_eq]; rfl,
        by simp only [privStep, hg, Out.bind_ok, Out.pure_eq], hr, hk⟩
  | init size s a =>
    rcases init_rel h size s a with e | ⟨w', r, e, hi, hr, hk⟩
    · left; simp only [step, e]; rfl
    · right
      exact ⟨w', some (s, r), 0, by simp only [step, e, Out.bind_ok, Out.pure_eq],
        by simp only [privStep, hi, Out.bind_ok, Out.pure_eq], hr, hk⟩
  | destroy =>
    right
    have h' : Rel t { w with once := true } rest p := by
      cases p with
      | none => exact h
      | some x => exact ⟨h.1, rfl, h.2.2⟩
    obtain ⟨w1, e1, hp1, hs1, ho1, hk1⟩ := destroy_rel h'
    refine ⟨{ w1 with slot := fun u => if u = t then none else w1.slot u }, none, 0, ?_, rfl,
      ⟨by simp, hp1⟩, fun u hu => ?_, hk1.2.1, fun _ => ho1⟩
    · simp only at e1
      simp only [step, localDestroy, localRegionGet, e1, Out.bind_ok, setSpecific, ho1, if_true, Out.pure_eq]
    · simp only [if_neg hu, hs1]
  | op s a o =>
    rcases get_rel h s a with e | ⟨w', ⟨q, r⟩, e, hg, hr, hk⟩
    · left; simp only [step, localOp, e]; rfl
    · obtain ⟨h1, h2, h0, h3, h4, h5, h6⟩ := hr
      have hsim := regOp_sim (r1 := ⟨r.head, r.node, w'.heap⟩) (r2 := r) ⟨rfl, rfl, h5⟩ o
      rcases regOp_weak h4 o with hw | ⟨r', v, hw, hwk⟩
      · rcases hsim with hu | hu | ⟨x, y, -, hy, -⟩
        · rw [hw] at hu; cases hu
        · left; simp only [step, localOp, e, Out.bind_ok, h3, hu]; rfl
        · rw [hw] at hy; cases hy
      · rcases hsim with hu | hu | ⟨x, y, hx, hy, hxy⟩
        · rw [hw] at hu; cases hu
        · left; simp only [step, localOp, e, Out.bind_ok, h3, hu]; rfl
        · right
          rw [hw] at hy
          obtain rfl : (r', v) = y := by simpa using hy
          obtain ⟨⟨e1, e2, e3⟩, e4⟩ := hxy
          simp only at e1 e2 e3 e4
          refine ⟨{ w' with heap := x.1.heap,
                            regs := fun y => if y = q then some (r'.head, r'.node) else w'.regs y },
            some (q, r'), v, ?_, ?_, ?_, ?_⟩
          · simp only [step, localOp, e, Out.bind_ok, h3, hx, Out.pure_eq, e1, e2, e4]
          · simp only [privStep, hg, Out.bind_ok, hw, Out.pure_eq]
          · exact ⟨h1, h2, h0, by simp, hwk, e3, h6⟩
          · refine hk.trans ⟨fun _ _ => rfl, fun x hx hm => ?_, id⟩
            exact if_neg (struct_ne (h6 _ hm))
  | exit =>
    right
    cases p with
    | none =>
      have hs : w.slot t = none := h.1
      refine ⟨if w.once then { w with slot := fun u => if u = t then none else w.slot u } else w, none, 0, ?_, rfl, ?_, ?_⟩
      · simp only [step, threadExit, hs]
        by_cases ho : w.once = true
        · simp only [ho, if_true, localRegionDestroy, Out.bind_ok, Out.pure_eq]
        · simp only [ho, Bool.false_eq_true, if_false, Out.bind_ok, Out.pure_eq]
      · by_cases ho : w.once = true
        · simp only [ho, if_true]; exact ⟨by simp, h.2⟩
        · simp only [ho, Bool.false_eq_true, if_false]; exact h
      · by_cases ho : w.once = true
        · simp only [ho, if_true]; exact ⟨fun u hu => if_neg hu, fun _ _ _ => rfl, fun _ => rfl⟩
        · simp only [ho, Bool.false_eq_true, if_false]; exact ⟨fun u hu => rfl, fun _ _ _ => rfl, id⟩
    | some x =>
      obtain ⟨w1, e1, hp1, hs1, ho1, hk1⟩ := destroy_rel h
      have ho : w.once = true := h.2.1
      have hsl : w.slot t = some x.1 := h.1
      have hrg : w.regs x.1 = some (x.2.head, x.2.node) := h.2.2.2.1
      refine ⟨{ w1 with slot := fun u => if u = t then none else w.slot u }, none, 0, ?_, rfl,
        ⟨by simp, hp1⟩, fun u hu => if_neg hu, hk1.2⟩
      simp only [step, threadExit, ho, if_true, hsl]
      rw [hsl] at e1
      simp only [localRegionDestroy, hrg] at e1 ⊢
      revert e1
      cases hd : destroy ⟨x.2.head, x.2.node, w.heap⟩ with
      | ub => intro e1; cases e1
      | oracle => intro e1; cases e1
      | ok r =>
        simp only [Out.bind_ok]
        cases hn : nodeFree r.heap (structBlk x.1) with
        | ub => intro e1; cases e1
        | oracle => intro e1; cases e1
        | ok hp =>
          simp only [Out.bind_ok, Out.pure_eq]
          intro e1
          obtain rfl : _ = w1 := by simpa using e1
          simp only [ho]

theorem Rel.heap {t : Nat} {w : World} {rest : List Chunk} {p : Priv} (h : Rel t w rest p) :
    w.heap.Perm (own p ++ rest) := by
  cases p with
  | none => exact h.2
  | some x =>
    have := h.2.2.2.2.2.1.1
    simpa [own] using this

theorem Rel.apart {t : Nat} {w : World} {rest : List Chunk} {p : Priv} (h : Rel t w rest p) :
    ∀ c ∈ own p, ∀ d ∈ rest, c.apart d := by
  cases p with
  | none => intro c hc; simp [own] at hc
  | some x =>
    obtain ⟨s, r⟩ := x
    obtain ⟨-, -, -, -, -, h5, h6⟩ := h
    intro c hc d hd
    rcases List.mem_append.1 hc with hc | hc
    · exact h5.2 c hc d (List.mem_cons_of_mem _ hd)
    · obtain rfl : c = structBlk s := by simpa using hc
      exact h6 d hd

theorem Rel.other {u : Nat} {w w' : World} {rest rest' : List Chunk} {p : Priv} (h : Rel u w rest p)
    (hs : w'.slot u = w.slot u) (ho : w.once = true → w'.once = true)
    (hr : ∀ x, 0 < x → structBlk x ∈ own p → w'.regs x = w.regs x)
    (hp : w'.heap.Perm (own p ++ rest')) (ha : ∀ c ∈ own p, ∀ d ∈ rest', c.apart d) : Rel u w' rest' p := by
  cases p with
  | none => exact ⟨hs.trans h.1, hp⟩
  | some x =>
    obtain ⟨s, r⟩ := x
    obtain ⟨h1, h2, h0, h3, h4, h5, h6⟩ := h
    refine ⟨hs.trans h1, ho h2, h0, (hr s h0 (by simp [own])).trans h3, h4, ⟨?_, ?_⟩, ?_⟩
    · simpa [own] using hp
    · intro c hc d hd
      rcases List.mem_cons.1 hd with rfl | hd
      · exact h5.2 c hc _ List.mem_cons_self
      · exact ha c (List.mem_append_left _ hc) d hd
    · exact fun d hd => ha _ (by simp [own]) d hd

theorem flatMap_erase {f : Nat → List Chunk} {l : List Nat} {x : Nat} (h : x ∈ l ∨ f x = []) :
    (l.flatMap f).Perm (f x ++ (l.erase x).flatMap f) := by
  by_cases hx : x ∈ l
  · have := (List.perm_cons_erase hx).flatMap_right f
    simpa using this
  · rcases h with h | h
    · exact absurd h hx
    · rw [h, List.erase_of_not_mem hx]; exact List.Perm.refl _

/-- What the threads other than `t` own. -/
def others (L : List Nat) (v : Nat → Priv) (t : Nat) : List Chunk := (L.erase t).flatMap fun u => own (v u)

/-- Every thread has the region `v` says it has, and all else belongs to the other threads. -/
structure Inv (L : List Nat) (w : World) (v : Nat → Priv) : Prop where
  rel : ∀ t, Rel t w (others L v t) (v t)
  out : ∀ t, t ∉ L → v t = none

theorem inv_step {L : List Nat} (hL : L.Nodup) {w : World} {v : Nat → Priv} (h : Inv L w v) {t : Nat}
    (ht : t ∈ L) (o : TOp) :
    step w t o = .oracle ∨ ∃ w' p' q, step w t o = .ok (w', q) ∧ privStep (v t) o = .ok (p', q) ∧
      Inv L w' (fun u => if u = t then p' else v u) := by
  rcases step_rel (h.rel t) o with e | ⟨w', p', q, e1, e2, hr, hk⟩
  · exact Or.inl e
  refine Or.inr ⟨w', p', q, e1, e2, ?_, ?_⟩
  · intro u
    have hf : ∀ l : List Nat, t ∉ l →
        (l.flatMap fun u => own (if u = t then p' else v u)) = l.flatMap fun u => own (v u) := by
      intro l hl
      refine List.flatMap_congr fun x hx => ?_
      rw [if_neg (by rintro rfl; exact hl hx)]
    by_cases hu : u = t
    · subst hu
      rw [if_pos rfl]
      have : others L (fun x => if x = u then p' else v x) u = others L v u :=
        hf _ (List.Nodup.not_mem_erase hL)
      rw [this]
      exact hr
    · rw [if_neg hu]
      have htu : t ∈ L.erase u := (List.mem_erase_of_ne (Ne.symm hu)).2 ht
      have hR : (others L v t).Perm (own (v u) ++ ((L.erase t).erase u).flatMap fun x => own (v x)) := by
        refine flatMap_erase (f := fun x => own (v x)) ?_
        by_cases hm : u ∈ L
        · exact Or.inl ((List.mem_erase_of_ne hu).2 hm)
        · exact Or.inr (by simp only [h.out u hm, own])
      have hN : (others L (fun x => if x = t then p' else v x) u).Perm
          (own p' ++ ((L.erase t).erase u).flatMap fun x => own (v x)) := by
        have h1 := flatMap_erase (f := fun x => own (if x = t then p' else v x)) (l := L.erase u) (x := t)
          (Or.inl htu)
        simp only [if_true] at h1
        rw [hf _ (List.Nodup.not_mem_erase (hL.erase u)), List.erase_comm] at h1
        exact h1
      have hO : (others L v u).Perm (own (v t) ++ ((L.erase t).erase u).flatMap fun x => own (v x)) := by
        have h1 := flatMap_erase (f := fun x => own (v x)) (l := L.erase u) (x := t) (Or.inl htu)
        rw [List.erase_comm] at h1
        exact h1
      refine Rel.other (h.rel u) (hk.1 u hu) hk.2.2 ?_ ?_ ?_
      · exact fun x hx hm => hk.2.1 x hx (hR.mem_iff.2 (List.mem_append_left _ hm))
      · refine hr.heap.trans ?_
        refine ((List.Perm.refl (own p')).append hR).trans ?_
        refine List.Perm.trans ?_ ((List.Perm.refl (own (v u))).append hN.symm)
        rw [← List.append_assoc, ← List.append_assoc]
        exact List.perm_append_comm.append_right _
      · intro c hc d hd
        rcases List.mem_append.1 (hN.mem_iff.1 hd) with hd | hd
        · exact apart_symm (hr.apart d hd c (hR.mem_iff.2 (List.mem_append_left _ hc)))
        · exact (h.rel u).apart c hc d (hO.mem_iff.2 (List.mem_append_right _ hd))
  · intro u hu
    exact (if_neg (by rintro rfl; exact hu ht)).trans (h.out u hu)

theorem inv_start (L : List Nat) : Inv L World.start (fun _ => none) := by
  refine ⟨fun t => ⟨rfl, ?_⟩, fun _ _ => rfl⟩
  have : others L (fun _ => none) t = [] := by simp [others, own]
  rw [this]
  exact List.Perm.refl _

/-- The operations of thread `t`. -/
def opsOf (t : Nat) (l : List (Nat × TOp)) : List TOp := (l.filter fun x => x.1 = t).map Prod.snd

/-- What thread `t` was returned. -/
def retsOf (t : Nat) (l : List (Nat × Nat)) : List Nat := (l.filter fun x => x.1 = t).map Prod.snd

theorem run_inv {L : List Nat} (hL : L.Nodup) : ∀ (ops : List (Nat × TOp)) (w : World) (v : Nat → Priv),
    (∀ x ∈ ops, x.1 ∈ L) → Inv L w v →
    run w ops = .oracle ∨ ∃ w' rets v', run w ops = .ok (w', rets) ∧ Inv L w' v' ∧
      ∀ t, privRun (v t) (opsOf t ops) = .ok (v' t, retsOf t rets)
  | [], w, v, _, h => Or.inr ⟨w, [], v, rfl, h, fun _ => rfl⟩
  | (t, o) :: l, w, v, hm, h => by
    rcases inv_step hL h (hm (t, o) List.mem_cons_self) o with e | ⟨w1, p', q, e1, e2, h1⟩
    · left; simp only [run, e]; rfl
    rcases run_inv hL l w1 _ (fun x hx => hm x (List.mem_cons_of_mem _ hx)) h1 with
      e | ⟨w', rets, v', e3, h3, h4⟩
    · left; simp only [run, e1, Out.bind_ok, e]; rfl
    · right
      refine ⟨w', (t, q) :: rets, v', by simp only [run, e1, Out.bind_ok, e3, Out.pure_eq], h3, fun u => ?_⟩
      have h5 := h4 u
      by_cases hu : u = t
      · subst hu
        simp only [if_true] at h5
        simp only [opsOf, retsOf, List.filter_cons, decide_true, if_true, List.map_cons, privRun, e2, Out.bind_ok]
        simp only [opsOf, retsOf] at h5
        rw [h5]; rfl
      · have hu' : ¬ t = u := fun h => hu h.symm
        rw [if_neg hu] at h5
        simp only [opsOf, retsOf, List.filter_cons, hu', decide_false, Bool.false_eq_true, if_false]
        exact h5

theorem run_start (ops : List (Nat × TOp)) :
    run World.start ops = .oracle ∨ ∃ w rets v L, L.Nodup ∧ run World.start ops = .ok (w, rets) ∧ Inv L w v ∧
      ∀ t, privRun none (opsOf t ops) = .ok (v t, retsOf t rets) := by
  have hL : (ops.map Prod.fst).dedup.Nodup := List.nodup_dedup _
  rcases run_inv hL ops World.start (fun _ => none)
    (fun x hx => List.mem_dedup.2 (List.mem_map_of_mem hx)) (inv_start _) with e | ⟨w, rets, v, e1, e2, e3⟩
  · exact Or.inl e
  · exact Or.inr ⟨w, rets, v, _, hL, e1, e2, e3⟩

theorem Rel.view {t : Nat} {w : World} {rest : List Chunk} {p : Priv} (h : Rel t w rest p) :
    view w t = privView p := by
  cases p with
  | none => simp only [RegionLocal.view, h.1, privView]; rfl
  | some x =>
    have h1 : w.slot t = some x.1 := h.1
    have h2 := h.2.2.2.1
    simp only [RegionLocal.view, h1, Option.bind_some, h2, Option.map_some, privView]

/-! ## Theorems -/

/-- **C137**. However the operations of any number of threads are interleaved, and wherever `malloc`
places the blocks, the calls are defined, and every thread sees exactly what it would see with a region
of its own: the pointers its calls return, the address, the head and the chunks of its region are those
of its own operations alone. -/
theorem C137_isolated (ops : List (Nat × TOp)) :
    run World.start ops = .oracle ∨ ∃ w rets, run World.start ops = .ok (w, rets) ∧
      ∀ t, ∃ p, privRun none (opsOf t ops) = .ok (p, retsOf t rets) ∧ view w t = privView p := by
  rcases run_start ops with e | ⟨w, rets, v, L, hL, e1, e2, e3⟩
  · exact Or.inl e
  · exact Or.inr ⟨w, rets, e1, fun t => ⟨v t, e3 t, (e2.rel t).view⟩⟩

theorem mem_view {t : Nat} {w : World} {rest : List Chunk} {p : Priv} (h : Rel t w rest p) {s hd : Nat}
    {nd : List Chunk} (hv : view w t = some (s, hd, nd)) {c : Chunk} (hc : c ∈ nd ∨ c = structBlk s) : c ∈ own p := by
  rw [h.view] at hv
  cases p with
  | none => cases hv
  | some x =>
    obtain ⟨s', r⟩ := x
    have hw : Weak r := h.2.2.2.2.1
    simp only [privView, Option.some.injEq, Prod.mk.injEq] at hv
    obtain ⟨rfl, rfl, rfl⟩ := hv
    rcases hc with hc | rfl
    · exact List.mem_append_left _ (hw.perm.mem_iff.2 hc)
    · simp [own]

/-- **C137**. The chunks (and the structures) of the regions of two threads never overlap. -/
theorem C137_apart (ops : List (Nat × TOp)) (w : World) (rets : List (Nat × Nat))
    (h : run World.start ops = .ok (w, rets)) (t u : Nat) (htu : t ≠ u) (s s' hd hd' : Nat)
    (nd nd' : List Chunk) (ht : view w t = some (s, hd, nd)) (hu : view w u = some (s', hd', nd'))
    (c d : Chunk) (hc : c ∈ nd ∨ c = structBlk s) (hdd : d ∈ nd' ∨ d = structBlk s') : c.apart d := by
  rcases run_start ops with e | ⟨w', rets', v, L, hL, e1, e2, e3⟩
  · rw [h] at e; cases e
  rw [h] at e1
  obtain ⟨rfl, rfl⟩ : w = w' ∧ rets = rets' := by simpa using e1
  have hm := mem_view (e2.rel u) hu hdd
  have huL : u ∈ L := by
    by_contra hn
    rw [e2.out u hn] at hm
    simp [own] at hm
  refine (e2.rel t).apart c (mem_view (e2.rel t) ht hc) d ?_
  exact List.mem_flatMap.2 ⟨u, (List.mem_erase_of_ne (Ne.symm htu)).2 huL, hm⟩

/-- **C137**. Nothing leaks: every allocated block is a chunk or the structure of the region of some
thread, so when no thread has a region any more (all called `aa_mem_region_local_destroy` or ended)
no block is allocated. -/
theorem C137_no_leak (ops : List (Nat × TOp)) (w : World) (rets : List (Nat × Nat))
    (h : run World.start ops = .ok (w, rets)) :
    (∀ b ∈ w.heap, ∃ t s hd nd, view w t = some (s, hd, nd) ∧ (b ∈ nd ∨ b = structBlk s)) ∧
      ((∀ t, w.slot t = none) → w.heap = []) := by
  rcases run_start ops with e | ⟨w', rets', v, L, hL, e1, e2, e3⟩
  · rw [h] at e; cases e
  rw [h] at e1
  obtain ⟨rfl, rfl⟩ : w = w' ∧ rets = rets' := by simpa using e1
  have key : ∀ b ∈ w.heap, ∃ t s hd nd, view w t = some (s, hd, nd) ∧ (b ∈ nd ∨ b = structBlk s) := by
    have hown : ∀ t, ∀ b ∈ own (v t), ∃ t s hd nd, view w t = some (s, hd, nd) ∧ (b ∈ nd ∨ b = structBlk s) := by
      intro t b hb
      have hr := e2.rel t
      cases hv : v t with
      | none => rw [hv] at hb; simp [own] at hb
      | some x =>
        obtain ⟨s, r⟩ := x
        rw [hv] at hb hr
        refine ⟨t, s, r.head, r.node, hr.view, ?_⟩
        have hw : Weak r := hr.2.2.2.2.1
        rcases List.mem_append.1 hb with hb | hb
        · exact Or.inl (hw.perm.mem_iff.1 hb)
        · exact Or.inr (by simpa using hb)
    intro b hb
    rcases List.mem_append.1 ((e2.rel 0).heap.mem_iff.1 hb) with hb | hb
    · exact hown 0 b hb
    · obtain ⟨u, -, hb⟩ := List.mem_flatMap.1 hb
      exact hown u b hb
  refine ⟨key, fun hn => List.eq_nil_iff_forall_not_mem.2 fun b hb => ?_⟩
  obtain ⟨t, s, hd, nd, hv, -⟩ := key b hb
  simp only [view, hn t] at hv
  cases hv

theorem alloc_block {r r' : Reg} (h : Weak r) {n a p : Nat} (e : alloc r n a = .ok (r', p)) :
    ∃ c cs, r'.node = c :: cs ∧ c.base ≤ p ∧ p + n ≤ c.fin := by
  obtain ⟨c, cs, hn, hb⟩ := h.top
  unfold alloc at e
  rw [hn] at e
  dsimp only at e
  split_ifs at e with hc
  · rcases grow_weak h n a with hg | ⟨r2, hg, -, c', cs', h1, h2, h3⟩
    · rw [hg] at e; cases e
    · rw [hg] at e
      simp only [Out.bind_ok, Out.pure_eq, Out.ok.injEq, Prod.mk.injEq] at e
      obtain ⟨rfl, rfl⟩ := e
      exact ⟨c', cs', h1, h2, h3⟩
  · simp only [Out.ok.injEq, Prod.mk.injEq] at e
    obtain ⟨rfl, rfl⟩ := e
    exact ⟨c, cs, rfl, hb, by omega⟩

theorem tmpalloc_block {r r' : Reg} (h : Weak r) {n a p : Nat} (e : tmpalloc r n a = .ok (r', p)) :
    ∃ c cs, r'.node = c :: cs ∧ c.base ≤ p ∧ p + n ≤ c.fin := by
  rcases tmpalloc_weak h n a with hg | ⟨r2, hg, -, c, cs, h1, h2, h3⟩
  · rw [hg] at e; cases e
  · rw [hg] at e
    simp only [Out.ok.injEq, Prod.mk.injEq] at e
    obtain ⟨rfl, rfl⟩ := e
    exact ⟨c, cs, h1, h2, h3⟩

/-- **C137**. In every state of every schedule, a block that `aa_mem_region_local_alloc` or
`aa_mem_region_local_tmpalloc` returns to a thread lies inside of a chunk of that thread's region. -/
theorem C137_block (ops : List (Nat × TOp)) (w w' : World) (rets : List (Nat × Nat))
    (h : run World.start ops = .ok (w, rets)) (t s a n a' p : Nat)
    (hs : step w t (.op s a (.alloc n a')) = .ok (w', p) ∨ step w t (.op s a (.tmpalloc n a')) = .ok (w', p)) :
    ∃ s' hd c cs, view w' t = some (s', hd, c :: cs) ∧ c.base ≤ p ∧ p + n ≤ c.fin := by
  rcases run_start ops with e | ⟨w1, rets', v, L, hL, e1, e2, e3⟩
  · rw [h] at e; cases e
  rw [h] at e1
  obtain ⟨rfl, rfl⟩ : w = w1 ∧ rets = rets' := by simpa using e1
  have key : ∀ o, step w t (.op s a o) = .ok (w', p) → (o = .alloc n a' ∨ o = .tmpalloc n a') →
      ∃ s' hd c cs, view w' t = some (s', hd, c :: cs) ∧ c.base ≤ p ∧ p + n ≤ c.fin := by
    intro o ho hc
    rcases step_rel (e2.rel t) (.op s a o) with e | ⟨w2, p2, q, g1, g2, g3, -⟩
    · rw [ho] at e; cases e
    rw [ho] at g1
    obtain ⟨rfl, rfl⟩ : w' = w2 ∧ p = q := by simpa using g1
    rcases get_rel (e2.rel t) s a with e | ⟨w3, x, -, k2, k3, -⟩
    · simp only [step, localOp, e] at ho; cases ho
    have hw : Weak x.2 := k3.2.2.2.2.1
    simp only [privStep, k2, Out.bind_ok] at g2
    cases hr : regOp x.2 o with
    | ub => rw [hr] at g2; cases g2
    | oracle => rw [hr] at g2; cases g2
    | ok y =>
      rw [hr] at g2
      simp only [Out.bind_ok, Out.pure_eq, Out.ok.injEq, Prod.mk.injEq] at g2
      obtain ⟨rfl, rfl⟩ := g2
      have : ∃ c cs, y.1.node = c :: cs ∧ c.base ≤ y.2 ∧ y.2 + n ≤ c.fin := by
        rcases hc with rfl | rfl
        · exact alloc_block hw hr
        · exact tmpalloc_block hw hr
      obtain ⟨c, cs, h1, h2⟩ := this
      exact ⟨x.1, y.1.head, c, cs, by rw [g3.view]; simp only [privView, h1], h2⟩
  rcases hs with hs | hs
  · exact key _ hs (Or.inl rfl)
  · exact key _ hs (Or.inr rfl)

/-- **C137**. A thread that has no region gets one of 256 kB from its first call, one that has a region
keeps it, and `aa_mem_region_local_init` gives it a new one of the size it asks for: all of that many
bytes are free. -/
theorem C137_size (size a : Nat) (r : Reg) (h : init size a = .ok r) : ∃ k, freesize r = .ok k ∧ size ≤ k := by
  unfold init at h
  rcases nodeAlloc_cases [] size a with h0 | ⟨h0, -⟩
  · rw [h0] at h; cases h
  · rw [h0] at h
    simp only [Out.bind_ok, Out.pure_eq, Out.ok.injEq] at h
    subst h
    have := align_lt (a + HDR)
    have hf : ¬ align (a + HDR) ≥ (Chunk.mk (a + HDR) (size + ALIGN)).fin := by
      simp only [Chunk.fin, ALIGN]; omega
    refine ⟨_, rfl, ?_⟩
    refine le_of_le_of_eq ?_ (if_neg hf).symm
    simp only [Chunk.fin, ALIGN]; omega

/-- Two threads take turns: thread 1 asks for its region, thread 2 starts one of 64 bytes, thread 1
allocates, thread 2 outgrows its region, thread 1 allocates more, thread 2 ends. -/
def demo137 : List (Nat × TOp) :=
  [(1, .get 1024 4096), (2, .init 64 1048576 1048640), (1, .op 0 0 (.alloc 100 0)),
   (2, .op 0 0 (.alloc 1000 1052672)), (1, .op 0 0 (.alloc 8 0)), (2, .exit)]

example : ∃ w, run World.start demo137 = .ok (w, [(1, 1024), (2, 0), (1, 4112), (2, 1052688), (1, 4224), (2, 0)])
    ∧ w.heap.length = 2 ∧ w.slot 2 = none ∧ privRun none (opsOf 1 demo137)
      = .ok (some (1024, ⟨4240, [⟨4112, 262160⟩], [⟨4112, 262160⟩]⟩), [1024, 4112, 4224]) :=
  ⟨_, rfl, rfl, rfl, rfl⟩

/-- Both threads have a region and the theorems apply: the schedule without the end of thread 2. -/
example : ∃ w rets s s' hd hd' c cs c' cs', run World.start (demo137.take 5) = .ok (w, rets) ∧
    view w 1 = some (s, hd, c :: cs) ∧ view w 2 = some (s', hd', c' :: cs') :=
  ⟨_, _, _, _, _, _, _, _, _, _, rfl, rfl, rfl⟩

/-- When both threads end, nothing is allocated. -/
example : ∃ w rets, run World.start (demo137 ++ [(1, .destroy), (1, .exit)]) = .ok (w, rets) ∧
    w.heap = [] ∧ (∀ t, w.slot t = none) := by
  refine ⟨_, _, rfl, rfl, fun t => ?_⟩
  show (if t = 1 then none else if t = 1 then none else if t = 2 then none else if t = 2 then some 1048576 else
    if t = 1 then some 1024 else none) = none
  split_ifs <;> rfl

/-- Overlap of a block of one thread with another's is not an answer `malloc` gives. -/
example : run World.start [(1, .get 1024 4096), (2, .get 2048 4200)] = .oracle := rfl

end Verif.RegionLocal
