import Verif.Proof.LifeSg
import Verif.Prop.LifeLed

/-! Every allowed call keeps the state of the library and the view of the client together. -/

namespace Verif.Life

open Finset

variable {s : St} {X : List Nat} {H rG mh : Nat → Nat} {mo : Nat → Option Nat}
  {ar : Nat → Fld → Option Given} {V : Nat → Prop}

structure Rel (L : Led) (s : St) : Prop where
  core : Core s [] L.lost L.refsG L.mh L.mesh L.arr L.via
  nM : s.nM = L.nM
  nG : s.nG = L.nG
  nS : s.nS = L.nS
  att : at3 s.frames = L.att
  fr : ∀ k f, s.frames.any (isAt k f) = L.fr k f
  frS : ∀ F ∈ s.frames, F.sg < s.nS
  sg : ∀ k, (s.sgs k).isSome = L.sg k
  lim : ∀ k S, s.sgs k = some S → (!S.lims.isEmpty) = L.lim k ∧ S.lims.any (·.2) = L.inh k
  src : ∀ m M, s.meshes m = some M → M.destr = L.src m
  last : ∀ k S, s.sgs k = some S → S.destr = L.last k

theorem refsM_eq (L : Led) (m : Nat) : L.refsM m = rM L.nG L.refsG L.mh L.mesh m := by
  unfold Led.refsM rM
  rw [Finset.card_filter]

theorem Core.cast {rG' mh' : Nat → Nat} {mo' : Nat → Option Nat} {ar' : Nat → Fld → Option Given}
    (h : Core s X H rG mh mo ar V) (e1 : ∀ g, rG' g = rG g) (e2 : ∀ g, mh' g = mh g)
    (e3 : ∀ g, mo' g = mo g) (e4 : ∀ m f, ar' m f = ar m f) : Core s X H rG' mh' mo' ar' V := by
  obtain rfl : rG' = rG := funext e1
  obtain rfl : mh' = mh := funext e2
  obtain rfl : mo' = mo := funext e3
  obtain rfl : ar' = ar := funext fun m => funext (e4 m)
  exact h

theorem Core.castH {H' : Nat → Nat} (h : Core s X H rG mh mo ar V) (e : ∀ g, H' g = H g) :
    Core s X H' rG mh mo ar V := by
  obtain rfl : H' = H := funext e
  exact h

theorem rel_init : Rel Led.init init := by
  refine ⟨⟨fun _ _ => rfl, fun g hg => ?_, fun _ _ => rfl, fun _ _ => rfl, fun m hm => ?_, fun _ _ => rfl,
    fun _ => rfl, fun _ _ => rfl, fun _ => rfl, fun _ _ => rfl, fun _ _ _ h => ?_, fun _ _ => rfl,
    fun _ _ _ _ _ h => ?_⟩, rfl, rfl, rfl, rfl, fun _ _ => rfl, fun _ h => ?_, fun _ => rfl, fun _ _ h => ?_,
    fun _ _ h => ?_, fun _ _ h => ?_⟩
  · simp [Led.refsG, Led.init] at hg
  · simp [rM, Led.init, init] at hm
  all_goals simp [init] at h

/-- A call that does not touch graphs. -/
theorem Rel.same {L L' : Led} {s s' : St} (h : Rel L s)
    (c : Core s' [] L'.lost L'.refsG L'.mh L'.mesh L'.arr L'.via)
    (q1 : s'.frames = s.frames) (q2 : s'.sgs = s.sgs) (q3 : s'.nS = s.nS) (nM : s'.nM = L'.nM)
    (nG : s'.nG = L'.nG) (e : L'.nS = L.nS ∧ L'.att = L.att ∧ L'.fr = L.fr ∧ L'.sg = L.sg ∧
      L'.lim = L.lim ∧ L'.inh = L.inh ∧ L'.last = L.last) (src : ∀ m M, s'.meshes m = some M → M.destr = L'.src m) : Rel L' s' := by
  obtain ⟨e1, e2, e3, e4, e5, e6, e7⟩ := e
  refine ⟨c, nM, nG, by rw [q3, e1]; exact h.nS, by rw [q1, e2]; exact h.att, fun k f => ?_, ?_, fun k => ?_,
    ?_, src, by rw [q2, e7]; exact h.last⟩
  · rw [q1, e3]; exact h.fr k f
  · rw [q1, q3]; exact h.frS
  · rw [q2, e4]; exact h.sg k
  · rw [q2, e5, e6]; exact h.lim

theorem Rel.keeps {L : Led} {s s' : St} (h : Rel L s) (k : Keeps s s') :
    ∀ m M, s'.meshes m = some M → M.destr = L.src m := by
  intro m M e
  obtain ⟨M0, e1, e2⟩ := k m M e
  rw [← e2]
  exact h.src m M0 e1

/-! ## Geometry -/

theorem refsG_new {L : Led} {s : St} (h : Rel L s) (g : Nat) :
    upd L.gh L.nG 1 g + (L.att.map (·.2.2)).count g = upd L.refsG s.nG 1 g := by
  have hz := h.core.gN s.nG (le_refl _)
  rw [h.nG] at hz ⊢
  by_cases e : g = L.nG
  · subst e
    unfold Led.refsG at hz
    simp only [upd, if_true]
    omega
  · simp [upd, e, Led.refsG]

theorem refsM_pos {L : Led} {s : St} (h : Rel L s) {m : Nat} (hm : 0 < L.refsM m) :
    0 < rM s.nG L.refsG L.mh L.mesh m := by
  rw [h.nG, ← refsM_eq]; exact hm

theorem refsM_gm {L : Led} {s : St} (h : Rel L s) {m : Nat} {o : Option Nat} (ho : o = some m) :
    (L.newG o).refsM m =
      L.refsM m + 1 := by
  rw [refsM_eq, refsM_eq]
  unfold rM
  rw [show (L.newG o).nG = L.nG + 1 from rfl, Finset.sum_range_succ]
  have e : ∀ g, (L.newG o).refsG g =
      upd L.refsG L.nG 1 g := by
    intro g
    have := refsG_new h g
    rw [h.nG] at this
    exact this
  have e1 : ∑ g ∈ range L.nG, (if 0 < (L.newG o).refsG g ∧ upd L.mesh L.nG o g = some m then 1 else 0) =
      ∑ g ∈ range L.nG, if 0 < L.refsG g ∧ L.mesh g = some m then 1 else 0 := by
    refine Finset.sum_congr rfl fun j hj => ?_
    have : j ≠ L.nG := (mem_range.1 hj).ne
    rw [e]
    simp [upd, this]
  have e2 : (L.newG o).mesh = upd L.mesh L.nG o := rfl
  have e3 : (L.newG o).mh = L.mh := rfl
  rw [e2, e3, e1, e]
  simp [upd, ho]
  omega

/-- Making an object for a mesh. -/
theorem rel_geomMesh {L : Led} {s : St} (h : Rel L s) {m : Nat} {o : Option Nat} (ho : o = some m)
    (hm : 0 < L.refsM m)
    (hb : Bounded (L.newG o)) :
    ∃ s', geomMesh s m = .ok s' ∧
      Rel (L.newG o) s' := by
  have hb' := hb.2 m
  rw [refsM_gm h ho] at hb'
  obtain ⟨s', e, c, q1, q2, q3, q4, q5⟩ := h.core.geomMesh (refsM_pos h hm)
    (by rw [h.nG, ← refsM_eq]; exact hb')
  subst ho
  refine ⟨s', e, h.same (c.cast (refsG_new h) (fun _ => rfl) (fun g => ?_) fun _ _ => rfl) q1 q2 q5
    (q4.trans h.nM) ?_ ⟨rfl, rfl, rfl, rfl, rfl, rfl, rfl⟩ (h.keeps (keeps_geomMesh e))⟩
  · show upd L.mesh L.nG _ g = _
    rw [h.nG]
  · rw [q3, h.nG]; rfl

theorem rel_geomPlain {L : Led} {s : St} (h : Rel L s) {o : Option Nat} (ho : o = none) :
    Rel (L.newG o) (geomNew s none) := by
  subst ho
  have c := h.core.newGeom none (mh' := L.mh) (fun k => by simp)
  refine h.same (c.cast (refsG_new h) (fun _ => rfl) (fun g => ?_) fun _ _ => rfl) rfl rfl rfl h.nM ?_
    ⟨rfl, rfl, rfl, rfl, rfl, rfl, rfl⟩ (h.keeps (Keeps.of_eq rfl))
  · show upd L.mesh L.nG _ g = _
    rw [h.nG]
  · show s.nG + 1 = L.nG + 1
    rw [h.nG]

theorem refsG_upd {L : Led} (g n : Nat) (k : Nat) :
    upd L.gh g n k + (L.att.map (·.2.2)).count k =
      upd L.refsG g (n + (L.att.map (·.2.2)).count g) k := by
  by_cases e : k = g
  · subst e; simp [upd]
  · simp [upd, e, Led.refsG]

/-! ## Frames -/

theorem count_split (A : Multiset (Nat × Nat × Nat)) (p : Nat × Nat × Nat → Prop) [DecidablePred p] (g : Nat) :
    ((A.filter p).map (·.2.2)).count g + ((A.filter fun x => ¬ p x).map (·.2.2)).count g =
      (A.map (·.2.2)).count g := by
  rw [← Multiset.count_add, ← Multiset.map_add, Multiset.filter_add_not]

theorem isAt_eq (k f : Nat) : isAt k f = fun F => (fun a b => a == k && b == f) F.sg F.name := rfl

/-- Geometry of the frames that a filter picks. -/
theorem geoms_count (q : Nat → Nat → Bool) (l : List Frame) (g : Nat) :
    ((l.filter fun F => q F.sg F.name).flatMap (·.geoms)).count g =
      (((at3 l).filter fun x => q x.1 x.2.1 = true).map (·.2.2)).count g := by
  rw [← Multiset.coe_count, at3_map, at3_filter]

/-- Frames are removed and their geometry is destroyed. -/
theorem Core.drop {A : Multiset (Nat × Nat × Nat)} {gh : Nat → Nat} (q : Nat → Nat → Bool)
    (h : Core s X H (fun g => gh g + (A.map (·.2.2)).count g) mh mo ar V)
    (hA : at3 s.frames = A) (hb : ∀ g, gh g + (A.map (·.2.2)).count g < 2 ^ 32)
    (hbm : ∀ m, rM s.nG (fun g => gh g + (A.map (·.2.2)).count g) mh mo m < 2 ^ 32) :
    ∃ s', Life.destroyAll { s with frames := s.frames.filter fun F => ! q F.sg F.name }
        ((s.frames.filter fun F => q F.sg F.name).flatMap (·.geoms)) = .ok s' ∧
      Core s' X H (fun g => gh g + ((A.filter fun x => ¬ q x.1 x.2.1 = true).map (·.2.2)).count g) mh mo ar V ∧
      at3 s'.frames = (A.filter fun x => ¬ q x.1 x.2.1 = true) ∧
      Same { s with frames := s.frames.filter fun F => ! q F.sg F.name } s' := by
  have hs := fun g => count_split A (fun x => q x.1 x.2.1 = true) g
  obtain ⟨s', e, c, r⟩ := (h.frames (s.frames.filter fun F => ! q F.sg F.name)).destroyAll
    ((s.frames.filter fun F => q F.sg F.name).flatMap (·.geoms))
    (fun g => by rw [geoms_count, hA]; have := hs g; omega) hb hbm
  refine ⟨s', e, c.cast (fun g => ?_) (fun _ => rfl) (fun _ => rfl) fun _ _ => rfl, ?_, r⟩
  · rw [geoms_count, hA]
    have := hs g
    omega
  · rw [r.frames]
    dsimp only
    rw [at3_filter fun a b => ! q a b, hA]
    simp

theorem any_filter_not (k f a b : Nat) (l : List Frame) :
    (l.filter fun F => ! isAt k f F).any (isAt a b) = if a = k ∧ b = f then false else l.any (isAt a b) := by
  induction l with
  | nil => simp
  | cons F l ih =>
    rw [List.filter_cons]
    by_cases h : isAt k f F = true
    · rw [h]
      simp only [Bool.not_true, Bool.false_eq_true, if_false, ih, List.any_cons]
      by_cases c : a = k ∧ b = f
      · rw [if_pos c, if_pos c]
      · rw [if_neg c, if_neg c]
        have : isAt a b F = false := by
          simp only [isAt, Bool.and_eq_true, beq_iff_eq] at h
          simp only [isAt, h.1, h.2, Bool.and_eq_false_iff, beq_eq_false_iff_ne]
          by_contra hc
          push Not at hc
          exact c ⟨hc.1.symm, hc.2.symm⟩
        rw [this]; simp
    · have h' : isAt k f F = false := by simpa using h
      rw [h']
      simp only [Bool.not_false, if_true, List.any_cons, ih]
      by_cases c : a = k ∧ b = f
      · rw [if_pos c, if_pos c, c.1, c.2, h']; rfl
      · rw [if_neg c, if_neg c]

/-- `rmFrame`, also while a plugin is held open. -/
theorem Core.rmFrame {A : Multiset (Nat × Nat × Nat)} {gh : Nat → Nat} {k : Nat} (f : Nat)
    (h : Core s X H (fun g => gh g + (A.map (·.2.2)).count g) mh mo ar V) (hk : (s.sgs k).isSome = true)
    (hA : at3 s.frames = A) (hb : ∀ g, gh g + (A.map (·.2.2)).count g < 2 ^ 32)
    (hbm : ∀ m, rM s.nG (fun g => gh g + (A.map (·.2.2)).count g) mh mo m < 2 ^ 32) :
    ∃ s', Life.rmFrame s k f = .ok s' ∧
      Core s' X H (fun g => gh g + ((A.filter fun x => ¬ (x.1 = k ∧ x.2.1 = f)).map (·.2.2)).count g)
        mh mo ar V ∧ at3 s'.frames = (A.filter fun x => ¬ (x.1 = k ∧ x.2.1 = f)) ∧
      s'.frames = (s.frames.filter fun F => ! isAt k f F) ∧ s'.sgs = s.sgs ∧ s'.nG = s.nG ∧ s'.nM = s.nM ∧
      s'.nS = s.nS := by
  obtain ⟨s', e, c, a, r⟩ := Core.drop (fun a b => a == k && b == f) h hA hb hbm
  obtain ⟨S, hS⟩ := Option.isSome_iff_exists.1 hk
  refine ⟨s', ?_, ?_, ?_, r.frames, r.sgs, r.nG, r.nM, r.nS⟩
  · unfold Life.rmFrame
    rw [hS]
    exact e
  · simpa using c
  · rw [a]; simp

theorem bounded_core {L : Led} {s : St} (h : Rel L s) (hb : Bounded L) (m : Nat) :
    rM s.nG L.refsG L.mh L.mesh m < 2 ^ 32 := by
  rw [h.nG, ← refsM_eq]; exact hb.2 m

theorem rel_rmFrame {L : Led} {s : St} (h : Rel L s) (hb : Bounded L) {k : Nat} (f : Nat)
    (hk : L.sg k = true) : ∃ s', rmFrame s k f = .ok s' ∧ Rel (L.next (.rmFrame k f)) s' := by
  obtain ⟨s', e, c, a, q1, q2, q3, q4, q5⟩ := Core.rmFrame (gh := L.gh) (A := L.att) (k := k) f h.core
    (by rw [h.sg]; exact hk) h.att hb.1 (bounded_core h hb)
  refine ⟨s', e, c, q4.trans h.nM, q3.trans h.nG, q5.trans h.nS, a, fun a b => ?_, fun F hF => ?_, fun j => ?_,
    ?_, h.keeps (keeps_rmFrame e), by rw [q2]; exact h.last⟩
  · rw [q1, any_filter_not, h.fr]; rfl
  · rw [q1] at hF
    rw [q5]
    exact h.frS F (List.mem_of_mem_filter hF)
  · rw [q2]; exact h.sg j
  · rw [q2]; exact h.lim

theorem rel_addFrame {L : Led} {s : St} (h : Rel L s) (hb : Bounded L) {k : Nat} (f : Nat)
    (hk : L.sg k = true) : ∃ s', addFrame s k f = .ok s' ∧ Rel (L.next (.addFrame k f)) s' := by
  obtain ⟨s', e, r⟩ := rel_rmFrame h hb f hk
  refine ⟨{ s' with frames := ⟨k, f, []⟩ :: s'.frames }, by unfold addFrame; rw [e]; rfl, r.core.frames _, r.nM,
    r.nG, r.nS, ?_, fun a b => ?_, fun F hF => ?_, r.sg, r.lim, r.src, r.last⟩
  · have := r.att
    show (([] : List (Nat × Nat × Nat)) : Multiset _) + at3 s'.frames = _
    rw [this]
    exact zero_add _
  · have := r.fr a b
    simp only [List.any_cons, this, isAt]
    simp only [Led.next, Led.addFrame]
    by_cases c : a = k ∧ b = f
    · simp [c.1, c.2]
    · rw [if_neg c, if_neg c]
      have : (k == a && f == b) = false := by
        simp only [Bool.and_eq_false_iff, beq_eq_false_iff_ne]
        by_contra hc
        push Not at hc
        exact c ⟨hc.1.symm, hc.2.symm⟩
      rw [this]; rfl
  · rcases List.mem_cons.1 hF with rfl | hF
    · show k < s'.nS
      obtain ⟨S, hS⟩ := Option.isSome_iff_exists.1 ((r.sg k).trans hk)
      exact r.core.sg_lt hS
    · exact r.frS F hF

theorem rel_attach {L : Led} {s : St} (h : Rel L s) {k f g : Nat} (hk : L.sg k = true)
    (hf : L.fr k f = true) (hg : 0 < L.gh g) :
    ∃ s', attach s k f g = .ok s' ∧ Rel (L.next (.attach k f g)) s' := by
  obtain ⟨S, hS⟩ := Option.isSome_iff_exists.1 ((h.sg k).trans hk)
  have ha := (h.fr k f).trans hf
  refine ⟨{ s with frames := push k f [g] s.frames }, by unfold attach; rw [hS]; dsimp only; rw [if_pos ha], ?_⟩
  refine ⟨(h.core.frames _).cast (fun j => ?_) (fun _ => rfl) (fun _ => rfl) fun _ _ => rfl, h.nM, h.nG, h.nS, ?_,
    fun a b => ?_, sg_push _ _ _ _ _ h.frS, h.sg, h.lim, h.src, h.last⟩
  · show upd L.gh g (L.gh g - 1) j + (Multiset.map _ ((k, f, g) ::ₘ L.att)).count j = L.gh j + _
    rw [Multiset.map_cons, Multiset.count_cons]
    by_cases c : j = g
    · subst c; simp [upd]; omega
    · simp [upd, c]
  · dsimp only
    rw [at3_push _ _ _ _ ha, h.att]
    show _ = (k, f, g) ::ₘ L.att
    rw [add_comm]
    rfl
  · dsimp only
    rw [any_push]
    exact h.fr a b

theorem count_map (A : Multiset (Nat × Nat × Nat)) (k : Nat × Nat × Nat → Nat × Nat × Nat)
    (hk : ∀ x, (k x).2.2 = x.2.2) (g : Nat) :
    ((A.map k).map (·.2.2)).count g = (A.map (·.2.2)).count g := by
  rw [Multiset.map_map]
  congr 1
  exact Multiset.map_congr rfl fun x _ => hk x

theorem filter_at (k f : Nat) (A : Multiset (Nat × Nat × Nat)) :
    (A.filter fun x => (x.1 == k && x.2.1 == f) = true) = A.filter fun x => x.1 = k ∧ x.2.1 = f := by
  simp

/-- Geometry that is attached somewhere is referred to. -/
theorem attached_pos {L : Led} {q : Nat × Nat × Nat → Prop} [DecidablePred q] {g : Nat}
    (h : 0 < ((L.att.filter q).map (·.2.2)).count g) : 0 < L.refsG g := by
  have := Multiset.count_le_of_le g (Multiset.map_le_map (f := (·.2.2)) (Multiset.filter_le q L.att))
  unfold Led.refsG
  omega

theorem rel_copyFrameGeom {L : Led} {s : St} (h : Rel L s) {k f1 f2 : Nat} (hk : L.sg k = true)
    (h1 : L.fr k f1 = true) (h2 : L.fr k f2 = true)
    (hc : f1 = f2 → L.att.filter (fun x => x.1 = k ∧ x.2.1 = f1) = 0)
    (hb : Bounded (L.next (.copyFrameGeom k f1 f2))) :
    ∃ s', copyFrameGeom s k f1 f2 = .ok s' ∧ Rel (L.next (.copyFrameGeom k f1 f2)) s' := by
  obtain ⟨S, hS⟩ := Option.isSome_iff_exists.1 ((h.sg k).trans hk)
  have a1 := (h.fr k f1).trans h1
  have a2 := (h.fr k f2).trans h2
  obtain ⟨gs, hgs⟩ : ∃ gs, gs = (s.frames.filter (isAt k f1)).flatMap (·.geoms) := ⟨_, rfl⟩
  have hm : ((gs : List Nat) : Multiset Nat) = (L.att.filter fun x => x.1 = k ∧ x.2.1 = f1).map (·.2.2) := by
    rw [hgs, at3_map, isAt_eq, at3_filter fun a b => a == k && b == f1, h.att, filter_at]
  have hcount : ∀ g, gs.count g = ((L.att.filter fun x => x.1 = k ∧ x.2.1 = f1).map (·.2.2)).count g := by
    intro g
    rw [← hm, Multiset.coe_count]
  have hne : (f1 != f2 || gs.isEmpty) = true := by
    by_cases c : f1 = f2
    · have := hc c
      rw [this] at hm
      simp only [Multiset.map_zero, Multiset.coe_eq_zero] at hm
      rw [hm]; simp
    · simp [c]
  have hr : ∀ g, (L.next (.copyFrameGeom k f1 f2)).refsG g = L.refsG g + gs.count g := by
    intro g
    unfold Led.refsG Led.next
    dsimp only
    rw [Multiset.map_add, Multiset.count_add, count_map _ (fun x => (k, f2, x.2.2)) (fun _ => rfl), hcount]
    omega
  obtain ⟨s1, e, c, r⟩ := h.core.copyAll gs (fun g hg => attached_pos (q := fun x => x.1 = k ∧ x.2.1 = f1)
      (by rw [← hcount]; exact List.count_pos_iff.2 hg)) (fun g => by rw [← hr]; exact hb.1 g)
  have ha1 : s1.frames.any (isAt k f2) = true := by rw [r.frames]; exact a2
  have ek : copyFrameGeom s k f1 f2 = .ok { s1 with frames := push k f2 gs s1.frames } := by
    unfold copyFrameGeom
    rw [hS]
    dsimp only
    rw [← hgs, a1, a2, hne]
    simp only [Bool.and_self, if_true]
    rw [e]
    rfl
  refine ⟨_, ek, (c.frames _).cast hr (fun _ => rfl) (fun _ => rfl) fun _ _ => rfl,
    r.nM.trans h.nM, r.nG.trans h.nG, r.nS.trans h.nS, ?_, fun a b => ?_, ?_, fun j => ?_, ?_,
    h.keeps (keeps_copyFrameGeom ek), by dsimp only; rw [r.sgs]; exact h.last⟩
  · dsimp only
    rw [at3_push _ _ _ _ ha1, r.frames, h.att]
    show _ = L.att + Multiset.map _ (Multiset.filter _ L.att)
    congr 1
    rw [← Multiset.map_coe, hm, Multiset.map_map]
    rfl
  · dsimp only
    rw [any_push, r.frames]
    exact h.fr a b
  · dsimp only
    refine sg_push _ _ _ _ _ ?_
    rw [r.frames, r.nS]
    exact h.frS
  · dsimp only
    rw [r.sgs]; exact h.sg j
  · dsimp only
    rw [r.sgs]; exact h.lim

theorem rel_setLimit {L : Led} {s : St} (h : Rel L s) {k c : Nat} (hk : L.sg k = true) :
    ∃ s', setLimit s k c = .ok s' ∧ Rel (L.next (.setLimit k c)) s' := by
  obtain ⟨S, hS⟩ := Option.isSome_iff_exists.1 ((h.sg k).trans hk)
  unfold setLimit
  rw [hS]
  dsimp only
  by_cases hl : S.lims.any (·.1 == c) = true
  · rw [if_pos hl]
    refine ⟨s, rfl, h.core, h.nM, h.nG, h.nS, h.att, h.fr, h.frS, h.sg, fun j T hT => ?_, h.src, h.last⟩
    obtain ⟨k1, k2⟩ := h.lim j T hT
    refine ⟨?_, k2⟩
    show _ = upd L.lim k true j
    by_cases e : j = k
    · subst e
      rw [hS] at hT
      cases hT
      simp only [upd, if_true]
      cases hlm : S.lims with
      | nil => rw [hlm] at hl; simp at hl
      | cons _ _ => rfl
    · simp only [upd, e, if_false]; exact k1
  · rw [if_neg hl]
    refine ⟨_, rfl, h.core.setSg hS (fun p => ?_) (fun p hp => h.core.sV k S p hS hp), h.nM, h.nG, h.nS, h.att,
      h.fr, h.frS, fun j => ?_, fun j T hT => ?_, h.src, fun j T hT => ?_⟩
    · rfl
    · dsimp only
      by_cases e : j = k
      · subst e
        have := h.sg j
        rw [hS] at this
        simp only [upd, if_true]
        exact this
      · simp only [upd, e, if_false]; exact h.sg j
    · dsimp only at hT
      show _ = upd L.lim k true j ∧ _ = L.inh j
      by_cases e : j = k
      · subst e
        simp only [upd, if_true, Option.some.injEq] at hT
        subst hT
        refine ⟨by simp [upd], ?_⟩
        have := (h.lim j S hS).2
        simpa using this
      · simp only [upd, e, if_false] at hT ⊢
        exact h.lim j T hT
    · dsimp only at hT
      show _ = L.last j
      by_cases e : j = k
      · subst e
        simp only [upd, if_true, Option.some.injEq] at hT
        subst hT
        exact h.last j S hS
      · simp only [upd, e, if_false] at hT
        exact h.last j T hT

theorem any_move (n a b : Nat) (k : Nat) (l : List Frame) :
    ((l.filter (·.sg == k)).map fun F => { F with sg := n }).any (isAt a b) =
      (decide (a = n) && l.any (isAt k b)) := by
  induction l with
  | nil => simp
  | cons F l ih =>
    rw [List.filter_cons]
    by_cases h : (F.sg == k) = true
    · rw [if_pos h, List.map_cons, List.any_cons, ih, List.any_cons]
      simp only [isAt, h, Bool.true_and]
      by_cases e : a = n
      · simp [e]
      · have e' : ¬ n = a := fun x => e x.symm
        simp [e, e']
    · rw [if_neg h, ih, List.any_cons]
      have : isAt k b F = false := by
        simp only [isAt]
        have : (F.sg == k) = false := by simpa using h
        rw [this]; rfl
      rw [this]; simp

theorem rel_sgCopy {L : Led} {s : St} (h : Rel L s) {k : Nat} (hk : L.sg k = true)
    (hb : Bounded (L.next (.sgCopy k))) :
    ∃ s', sgCopy s k = .ok s' ∧ Rel (L.next (.sgCopy k)) s' := by
  obtain ⟨S, hS⟩ := Option.isSome_iff_exists.1 ((h.sg k).trans hk)
  obtain ⟨fs, hfs⟩ : ∃ fs, fs = s.frames.filter (·.sg == k) := ⟨_, rfl⟩
  obtain ⟨gs, hgs⟩ : ∃ gs, gs = fs.flatMap (·.geoms) := ⟨_, rfl⟩
  have ha : at3 fs = L.att.filter fun x => x.1 = k := by
    rw [hfs, at3_filter fun a _ => a == k, h.att]
    simp
  have hcount : ∀ g, gs.count g = ((L.att.filter fun x => x.1 = k).map (·.2.2)).count g := by
    intro g
    rw [hgs, ← Multiset.coe_count, at3_map, ha]
  have hr : ∀ g, (L.next (.sgCopy k)).refsG g = L.refsG g + gs.count g := by
    intro g
    unfold Led.refsG Led.next
    dsimp only
    rw [Multiset.map_add, Multiset.count_add, count_map _ (fun x => (L.nS, x.2.1, x.2.2)) (fun _ => rfl), hcount]
    omega
  obtain ⟨s1, e, c, r⟩ := h.core.copyAll gs (fun g hg => attached_pos (q := fun x => x.1 = k)
      (by rw [← hcount]; exact List.count_pos_iff.2 hg)) (fun g => by rw [← hr]; exact hb.1 g)
  have ek : sgCopy s k = .ok { s1 with
      sgs := upd s1.sgs s1.nS (some ⟨none, S.lims.map fun l => (l.1, true)⟩), nS := s1.nS + 1,
      frames := fs.map (fun F => { F with sg := s1.nS }) ++ s1.frames } := by
    unfold sgCopy
    rw [hS]
    dsimp only
    rw [← hfs, ← hgs, e]
    rfl
  have hn : s1.nS = L.nS := r.nS.trans h.nS
  refine ⟨_, ek, ((c.newSg _).frames _).cast hr (fun _ => rfl) (fun _ => rfl) fun _ _ => rfl,
    r.nM.trans h.nM, r.nG.trans h.nG, ?_, ?_, fun a b => ?_, fun F hF => ?_, fun j => ?_, fun j T hT => ?_,
    h.keeps (keeps_sgCopy ek), fun j T hT => ?_⟩
  · show s1.nS + 1 = L.nS + 1
    rw [hn]
  · dsimp only
    rw [at3_append, at3_move, ha, r.frames, h.att, add_comm, hn]
    rfl
  · dsimp only
    rw [List.any_append, hfs, any_move, r.frames, h.fr, h.fr, hn]
    show _ = upd L.fr L.nS (L.fr k) a b
    by_cases e : a = L.nS
    · subst e
      have : L.fr L.nS b = false := by
        rw [← h.fr]
        rw [List.any_eq_false]
        intro F hF
        have := h.frS F hF
        have : F.sg ≠ L.nS := by rw [h.nS] at this; omega
        simp [isAt, this]
      simp [upd, this]
    · simp [upd, e]
  · show F.sg < s1.nS + 1
    rcases List.mem_append.1 hF with hF | hF
    · obtain ⟨F0, -, rfl⟩ := List.mem_map.1 hF
      exact Nat.lt_succ_self _
    · rw [r.frames] at hF
      have := h.frS F hF
      rw [r.nS]; omega
  · dsimp only
    show _ = upd L.sg L.nS true j
    rw [hn, r.sgs]
    by_cases e : j = L.nS
    · simp [upd, e]
    · simp only [upd, e, if_false]; exact h.sg j
  · dsimp only at hT
    rw [hn, r.sgs] at hT
    show _ = upd L.lim L.nS (L.lim k) j ∧ _ = upd L.inh L.nS (L.lim k) j
    by_cases e : j = L.nS
    · subst e
      simp only [upd, if_true, Option.some.injEq] at hT ⊢
      subst hT
      have := (h.lim k S hS).1
      rw [← this]
      cases S.lims <;> simp
    · simp only [upd, e, if_false] at hT ⊢
      exact h.lim j T hT
  · dsimp only at hT
    rw [hn, r.sgs] at hT
    show _ = upd L.last L.nS none j
    by_cases e : j = L.nS
    · subst e
      simp only [upd, if_true, Option.some.injEq] at hT ⊢
      subst hT
      rfl
    · simp only [upd, e, if_false] at hT ⊢
      exact h.last j T hT

theorem rel_sgDestroy {L : Led} {s : St} (h : Rel L s) (hb : Bounded L) {k : Nat} (hk : L.sg k = true)
    (hc : L.inh k = false) : ∃ s', sgDestroy s k = .ok s' ∧ Rel (L.next (.sgDestroy k)) s' := by
  obtain ⟨S, hS⟩ := Option.isSome_iff_exists.1 ((h.sg k).trans hk)
  obtain ⟨dl', e0, c0⟩ := h.core.dropSg hS
  obtain ⟨s', e, c, a, r⟩ := Core.drop (gh := L.gh) (A := L.att) (fun a _ => a == k) c0 h.att hb.1
    (by have := bounded_core h hb; exact this)
  have hl : S.lims.any (·.2) = false := ((h.lim k S hS).2).trans hc
  have ek : sgDestroy s k = .ok s' := by
    unfold sgDestroy
    rw [hS]
    dsimp only
    rw [e0]
    dsimp only [Out.bind]
    have : destroyAll { s with dl := dl', frames := s.frames.filter (·.sg != k), sgs := upd s.sgs k none }
        ((s.frames.filter (·.sg == k)).flatMap (·.geoms)) = .ok s' := e
    rw [this]
    dsimp only
    rw [hl]
    rfl
  refine ⟨s', ek, ?_, r.nM.trans h.nM, r.nG.trans h.nG, r.nS.trans h.nS, ?_, fun x y => ?_, fun F hF => ?_,
    fun j => ?_, fun j T hT => ?_, h.keeps (keeps_sgDestroy ek), fun j T hT => ?_⟩
  · refine c.cast (fun g => ?_) (fun _ => rfl) (fun _ => rfl) fun _ _ => rfl
    show L.gh g + _ = _
    simp [Led.next]
  · rw [a]
    simp [Led.next]
  · rw [r.frames]
    show List.any (List.filter _ s.frames) _ = upd L.fr k (fun _ => false) x y
    by_cases e : x = k
    · subst e
      simp only [upd, if_true]
      rw [List.any_eq_false]
      intro F hF
      have := (List.mem_filter.1 hF).2
      simp only [Bool.not_eq_true', beq_eq_false_iff_ne] at this
      simp [isAt, this]
    · simp only [upd, e, if_false]
      rw [← h.fr, List.any_filter]
      congr 1
      funext F
      simp only [isAt]
      by_cases c : F.sg = x
      · subst c; simp [e]
      · simp [c]
  · rw [r.frames] at hF
    rw [r.nS]
    exact h.frS F (List.mem_of_mem_filter hF)
  · rw [r.sgs]
    show (upd s.sgs k none j).isSome = upd L.sg k false j
    by_cases e : j = k
    · simp [upd, e]
    · simp only [upd, e, if_false]; exact h.sg j
  · rw [r.sgs] at hT
    change upd s.sgs k none j = some T at hT
    by_cases e : j = k
    · subst e; simp [upd] at hT
    · simp only [upd, e, if_false] at hT
      exact h.lim j T hT
  · rw [r.sgs] at hT
    change upd s.sgs k none j = some T at hT
    by_cases e : j = k
    · subst e; simp [upd] at hT
    · simp only [upd, e, if_false] at hT
      exact h.last j T hT

theorem rM_newG {n m : Nat} :
    rM (n + 1) (upd rG n 1) mh (upd mo n (some m)) m = rM n rG mh mo m + 1 := by
  unfold rM
  rw [Finset.sum_range_succ]
  have e1 : ∑ g ∈ range n, (if 0 < upd rG n 1 g ∧ upd mo n (some m) g = some m then 1 else 0) =
      ∑ g ∈ range n, if 0 < rG g ∧ mo g = some m then 1 else 0 := by
    refine Finset.sum_congr rfl fun j hj => ?_
    have : j ≠ n := (mem_range.1 hj).ne
    simp [upd, this]
  rw [e1]
  simp [upd]
  omega

theorem rel_dlSg {L : Led} {s : St} (h : Rel L s) (hb : Bounded L) {p d k f : Nat} (hk : L.sg k = true) :
    ∃ s', dlSg s p d k f = .ok s' ∧ Rel (L.next (.dlSg p d k f)) s' := by
  have c1 := h.core.dlopen p
  obtain ⟨s1, e1, c2, a1, q1, q2, q3, q4, q5⟩ := Core.rmFrame (gh := L.gh) (A := L.att) (k := k) f c1
    (by rw [← hk]; exact h.sg k) h.att hb.1 (by have := bounded_core h hb; exact this)
  have ea : addFrame { s with dl := upd s.dl p (s.dl p + 1) } k f =
      .ok { s1 with frames := ⟨k, f, []⟩ :: s1.frames } := by
    unfold addFrame; rw [e1]; rfl
  have c3 := (c2.frames (⟨k, f, []⟩ :: s1.frames)).newMesh (dl' := s1.dl) (fun _ => .lib p d) none
    (fun _ _ => by simp) (fun q => by simp) (fun _ q e hq => .inr (.inr (by cases hq; rfl)))
  have hr := rM_new (c2.frames (⟨k, f, []⟩ :: s1.frames)) s1.nM
  rw [if_pos rfl] at hr
  obtain ⟨s2, e2, c4, r1, r2, r3, r4, r5⟩ := c3.geomMesh (m := s1.nM) (by dsimp only at hr ⊢; rw [hr]; omega)
    (by dsimp only at hr ⊢; rw [hr]; omega)
  dsimp only at c4 r1 r2 r3 r4 r5
  have hS' : s2.sgs k = s.sgs k := by rw [r2, q2]
  obtain ⟨S, hS⟩ := Option.isSome_iff_exists.1 ((h.sg k).trans hk)
  have ha : s2.frames.any (isAt k f) = true := by rw [r1]; simp [isAt]
  have e3 : attach s2 k f s1.nG = .ok { s2 with frames := push k f [s1.nG] s2.frames } := by
    unfold attach; rw [hS', hS]; dsimp only; rw [if_pos ha]
  have c5 := c4.frames (push k f [s1.nG] s2.frames)
  have hr5 : rM s2.nG (upd (fun g => L.gh g + ((L.att.filter fun x => ¬ (x.1 = k ∧ x.2.1 = f)).map
      (·.2.2)).count g) s1.nG 1) (upd L.mh s1.nM 1) (upd L.mesh s1.nG (some s1.nM)) s1.nM = 2 := by
    rw [r3]
    have := rM_newG (n := s1.nG) (m := s1.nM) (rG := fun g => L.gh g + ((L.att.filter
      fun x => ¬ (x.1 = k ∧ x.2.1 = f)).map (·.2.2)).count g) (mh := upd L.mh s1.nM 1) (mo := L.mesh)
    dsimp only at hr
    rw [hr] at this
    exact this
  obtain ⟨s3, e4, c6, t1, t2, t3, t4, t5, t6, t7⟩ := c5.meshDestroy (m := s1.nM) (by simp [upd])
    (by dsimp only; rw [hr5]; omega)
  dsimp only at t1 t2 t3 t4 t5 t6 t7
  have hS3 : s3.sgs k = some S := by rw [t3, hS', hS]
  have c7 := c6.setSg (S' := { S with destr := some p }) (H' := (L.next (.dlSg p d k f)).lost) hS3
    (fun q => by
      have := h.last k S hS
      simp only [fS, upd, Led.next, this]
      by_cases e : q = p
      · subst e; simp; omega
      · have e' : ¬ p = q := fun x => e x.symm
        simp [e, e'])
    (fun q hq => .inr (by cases hq; rfl))
  have ek : dlSg s p d k f = .ok { s3 with sgs := upd s3.sgs k (some { S with destr := some p }) } := by
    unfold dlSg
    dsimp only
    rw [ea]
    dsimp only [Out.bind]
    rw [e2]
    dsimp only
    rw [e3]
    dsimp only
    rw [e4]
    dsimp only
    rw [hS3]
  have nM1 : s1.nM = L.nM := q4.trans h.nM
  have nG1 : s1.nG = L.nG := q3.trans h.nG
  have hz := h.core.gN L.nG (by rw [h.nG])
  have hzm : L.mh L.nM = 0 := by
    have := h.core.mN L.nM (by rw [h.nM])
    unfold rM at this
    omega
  have hcs := fun g => count_split L.att (fun x => x.1 = k ∧ x.2.1 = f) g
  refine ⟨_, ek, c7.cast (fun g => ?_) (fun m => ?_) (fun g => ?_) (fun m f' => ?_), ?_, ?_, ?_, ?_, fun x y => ?_,
    fun F hF => ?_, fun j => ?_, fun j T hT => ?_, fun m M hM => ?_, fun j T hT => ?_⟩
  · show L.gh g + (((k, f, L.nG) ::ₘ L.att.filter _).map _).count g = _
    rw [Multiset.map_cons, Multiset.count_cons, nG1]
    by_cases e : g = L.nG
    · subst e
      have := hcs L.nG
      unfold Led.refsG at hz
      simp only [upd, if_true]
      omega
    · simp [upd, e]
  · show L.mh m = _
    rw [nM1]
    by_cases e : m = L.nM
    · subst e; simp [upd, hzm]
    · simp [upd, e]
  · show upd L.mesh L.nG (some L.nM) g = _
    rw [nM1, nG1]
  · show upd L.arr L.nM (fun _ => some (.lib p d)) m f' = _
    rw [show s1.nM = L.nM from nM1]
    rfl
  · show s3.nM = L.nM + 1
    rw [t5, r4, nM1]
  · show s3.nG = L.nG + 1
    rw [t4, r3, nG1]
  · show s3.nS = L.nS
    rw [t6, r5, q5]
    exact h.nS
  · show at3 s3.frames = (k, f, L.nG) ::ₘ L.att.filter _
    rw [t2, at3_push _ _ _ _ ha, r1, nG1]
    show (([] : List (Nat × Nat × Nat)) : Multiset _) + at3 s1.frames + _ = _
    rw [a1, add_comm]
    show _ + (0 + _) = _
    rw [zero_add]
    rfl
  · show s3.frames.any _ = if x = k ∧ y = f then true else L.fr x y
    rw [t2, any_push, r1, List.any_cons, q1]
    dsimp only
    rw [any_filter_not, h.fr]
    simp only [isAt]
    by_cases c : x = k ∧ y = f
    · simp [c.1, c.2]
    · rw [if_neg c, if_neg c]
      have : (k == x && f == y) = false := by
        simp only [Bool.and_eq_false_iff, beq_eq_false_iff_ne]
        by_contra hc
        push Not at hc
        exact c ⟨hc.1.symm, hc.2.symm⟩
      rw [this]; rfl
  · show F.sg < s3.nS
    have hF' : F ∈ push k f [s1.nG] s2.frames := by rw [← t2]; exact hF
    rw [t6, r5, q5]
    refine sg_push k f s.nS [s1.nG] s2.frames (fun G hG => ?_) F hF'
    rw [r1] at hG
    rcases List.mem_cons.1 hG with rfl | hG
    · exact h.core.sg_lt hS
    · rw [q1] at hG
      exact h.frS G (List.mem_of_mem_filter hG)
  · show (upd s3.sgs k _ j).isSome = L.sg j
    rw [t3, r2, q2]
    by_cases e : j = k
    · subst e; simp [upd, hk]
    · simp only [upd, e, if_false]; exact h.sg j
  · change upd s3.sgs k _ j = some T at hT
    rw [t3, r2, q2] at hT
    by_cases e : j = k
    · subst e
      simp only [upd, if_true, Option.some.injEq] at hT
      subst hT
      exact h.lim j S hS
    · simp only [upd, e, if_false] at hT
      exact h.lim j T hT
  · show _ = upd L.src L.nM none m
    rcases dlSg_destr ek (fun s0 hs0 => by rw [ea] at hs0; cases hs0; exact q4) m M hM with ⟨rfl, hd⟩ | ⟨M0, k1, k2⟩
    · rw [hd, h.nM]; simp [upd]
    · have : m ≠ L.nM := by
        have := (h.core.mesh_lt k1).1
        rw [h.nM] at this; omega
      simp only [upd, this, if_false]
      rw [← k2]
      exact h.src m M0 k1
  · change upd s3.sgs k _ j = some T at hT
    show _ = upd L.last k (some p) j
    rw [t3, r2, q2] at hT
    by_cases e : j = k
    · subst e
      simp only [upd, if_true, Option.some.injEq] at hT ⊢
      subst hT
      rfl
    · simp only [upd, e, if_false] at hT ⊢
      exact h.last j T hT

theorem rel_newMesh {L : Led} {s : St} (h : Rel L s) (a : Fld → Arr) (o : Option Nat) {dl' : Nat → Nat}
    {A : Fld → Option Given}
    (ha : ∀ f b, a f ≠ .owned b) (hdl : ∀ p, dl' p = s.dl p + if o = some p then 1 else 0)
    (hl : ∀ f p d, a f = .lib p d → o = some p ∨ L.via p) (hA : ∀ f, A f = given s (a f)) :
    Rel { L with mh := upd L.mh L.nM 1, nM := L.nM + 1, arr := upd L.arr L.nM A, src := upd L.src L.nM o }
      { s with meshes := upd s.meshes s.nM (some ⟨1, a, o⟩), nM := s.nM + 1, dl := dl' } := by
  have c := h.core.newMesh a o ha hdl hl
  refine h.same (c.cast (fun _ => rfl) (fun m => ?_) (fun _ => rfl) fun m f => ?_) rfl rfl rfl ?_ h.nG
    ⟨rfl, rfl, rfl, rfl, rfl, rfl, rfl⟩ fun m M hM => ?_
  · dsimp only; rw [h.nM]
  · dsimp only
    rw [h.nM]
    by_cases e : m = L.nM
    · simp only [upd, e, if_true]; exact hA f
    · simp only [upd, e, if_false]
  · dsimp only; rw [h.nM]
  · dsimp only at hM ⊢
    rw [h.nM] at hM
    by_cases e : m = L.nM
    · simp only [upd, e, if_true, Option.some.injEq] at hM ⊢
      rw [← hM]
    · simp only [upd, e, if_false] at hM ⊢
      exact h.src m M hM

/-- Every allowed call. -/
theorem rel_step {L : Led} {s : St} (h : Rel L s) (hb : Bounded L) (o : Op) (ha : Allowed L o)
    (hc : Clean L o) (hb' : Bounded (L.next o)) : ∃ s', step s o = .ok s' ∧ Rel (L.next o) s' := by
  cases o with
  | meshCreate =>
    exact ⟨_, rfl, rel_newMesh h (fun _ => .null) none (dl' := s.dl) (by simp) (by simp) (by simp)
      (fun _ => rfl)⟩
  | meshDestroy m =>
    obtain ⟨s', e, c, q1, q2, q3, q4, q5, q6, q7⟩ := h.core.meshDestroy ha (bounded_core h hb m)
    exact ⟨s', e, h.same c q2 q3 q6 (q5.trans h.nM) (q4.trans h.nG) ⟨rfl, rfl, rfl, rfl, rfl, rfl, rfl⟩
      (h.keeps (keeps_meshDestroy e))⟩
  | meshSet m f src =>
    obtain ⟨s', e, c, q1, q2, q3, q4, q5, q6, q7⟩ := h.core.meshSet (refsM_pos h ha) f src
    exact ⟨s', e, h.same c q2 q3 q6 (q5.trans h.nM) (q4.trans h.nG) ⟨rfl, rfl, rfl, rfl, rfl, rfl, rfl⟩
      (h.keeps (keeps_meshSet e))⟩
  | meshTexture m d =>
    obtain ⟨s', e, c, q1, q2, q3, q4, q5, q6, q7⟩ := h.core.meshTexture (refsM_pos h ha) d hc
    exact ⟨s', e, h.same c q2 q3 q6 (q5.trans h.nM) (q4.trans h.nG) ⟨rfl, rfl, rfl, rfl, rfl, rfl, rfl⟩
      (h.keeps (keeps_meshTexture e))⟩
  | dlMesh p d =>
    refine ⟨_, rfl, rel_newMesh h (fun _ => .lib p d) (some p) (dl' := upd s.dl p (s.dl p + 1)) (by simp)
      (fun q => ?_) (fun _ q e hq => .inl (by cases hq; rfl)) (fun _ => rfl)⟩
    by_cases e : q = p
    · subst e; simp [upd]
    · have e' : ¬ p = q := fun x => e x.symm
      simp [upd, e, e']
  | geomPlain => exact ⟨_, rfl, rel_geomPlain h rfl⟩
  | geomMesh m => exact rel_geomMesh h rfl ha hb'
  | geomCopy g =>
    have hb1 := hb'.1 g
    have e1 : (L.next (.geomCopy g)).refsG g = L.refsG g + 1 := by
      show upd L.gh g (L.gh g + 1) g + _ = _
      simp only [upd, if_true]
      unfold Led.refsG
      show _ + (L.att.map _).count g = _
      omega
    rw [e1] at hb1
    obtain ⟨s', e, c, q1, q2, q3, q4, q5⟩ := h.core.geomCopy ha hb1
    refine ⟨s', e, h.same (c.cast (fun k => ?_) (fun _ => rfl) (fun _ => rfl) fun _ _ => rfl) q1 q2 q5
      (q4.trans h.nM) (q3.trans h.nG) ⟨rfl, rfl, rfl, rfl, rfl, rfl, rfl⟩ (h.keeps (keeps_geomCopy e))⟩
    refine (refsG_upd g (L.gh g + 1) k).trans ?_
    congr 1
    unfold Led.refsG
    omega
  | geomModify g =>
    obtain ⟨G, hG, hrc, hme⟩ := h.core.g1 g ha
    cases hm : L.mesh g with
    | none =>
      refine ⟨_, ?_, rel_geomPlain h hm⟩
      simp only [step, geomModify]
      rw [hG]
      dsimp only
      rw [hme, hm]
    | some m =>
      have hlive : 0 < L.refsM m := by
        have hg := h.core.lt_nG ha
        have : 0 < ((range L.nG).filter fun j => 0 < L.refsG j ∧ L.mesh j = some m).card :=
          Finset.card_pos.2 ⟨g, Finset.mem_filter.2 ⟨mem_range.2 (by rw [← h.nG]; exact hg), ha, hm⟩⟩
        unfold Led.refsM
        omega
      obtain ⟨s', e, r⟩ := rel_geomMesh h hm hlive hb'
      refine ⟨s', ?_, r⟩
      simp only [step, geomModify]
      rw [hG]
      dsimp only
      rw [hme, hm]
      exact e
  | clInit g =>
    obtain ⟨s', e, c, q1, q2, q3, q4, q5⟩ := h.core.clInit ha
    exact ⟨s', e, h.same c q1 q2 q5 (q4.trans h.nM) (q3.trans h.nG) ⟨rfl, rfl, rfl, rfl, rfl, rfl, rfl⟩
      (h.keeps (keeps_clInit e))⟩
  | glInit g =>
    obtain ⟨s', e, c, q1, q2, q3, q4, q5⟩ := h.core.glInit ha
    exact ⟨s', e, h.same c q1 q2 q5 (q4.trans h.nM) (q3.trans h.nG) ⟨rfl, rfl, rfl, rfl, rfl, rfl, rfl⟩
      (h.keeps (keeps_glInit e))⟩
  | geomDestroy g =>
    have hg : 0 < L.gh g := ha
    obtain ⟨s', e, c, q1, q2, q3, q4, q5⟩ := h.core.geomDestroy (g := g) (by unfold Led.refsG; omega) (hb.1 g)
      (bounded_core h hb)
    refine ⟨s', e, h.same (c.cast (fun k => ?_) (fun _ => rfl) (fun _ => rfl) fun _ _ => rfl) q1 q2 q5
      (q4.trans h.nM) (q3.trans h.nG) ⟨rfl, rfl, rfl, rfl, rfl, rfl, rfl⟩ (h.keeps (keeps_geomDestroy e))⟩
    refine (refsG_upd g (L.gh g - 1) k).trans ?_
    congr 1
    unfold Led.refsG
    omega
  | cleanup =>
    obtain ⟨s', e, c, q1, q2, q3, q4, q5, -⟩ := h.core.cleanup
    exact ⟨s', e, h.same c q1 q2 q5 (q4.trans h.nM) (q3.trans h.nG) ⟨rfl, rfl, rfl, rfl, rfl, rfl, rfl⟩
      (h.keeps (keeps_cleanup e))⟩
  | sgCreate =>
    refine ⟨_, rfl, h.core.newSg [], h.nM, h.nG, ?_, h.att, h.fr, fun F hF => ?_, fun j => ?_, fun j T hT => ?_,
      h.src, fun j T hT => ?_⟩
    · show s.nS + 1 = L.nS + 1
      rw [h.nS]
    · have := h.frS F hF
      show F.sg < s.nS + 1
      omega
    · show (upd s.sgs s.nS _ j).isSome = upd L.sg L.nS true j
      rw [h.nS]
      by_cases e : j = L.nS
      · simp [upd, e]
      · simp only [upd, e, if_false]; exact h.sg j
    · change upd s.sgs s.nS _ j = some T at hT
      show _ = upd L.lim L.nS false j ∧ _ = upd L.inh L.nS false j
      rw [h.nS] at hT
      by_cases e : j = L.nS
      · simp only [upd, e, if_true, Option.some.injEq] at hT ⊢
        subst hT
        simp
      · simp only [upd, e, if_false] at hT ⊢
        exact h.lim j T hT
    · change upd s.sgs s.nS _ j = some T at hT
      show _ = upd L.last L.nS none j
      rw [h.nS] at hT
      by_cases e : j = L.nS
      · simp only [upd, e, if_true, Option.some.injEq] at hT ⊢
        subst hT
        rfl
      · simp only [upd, e, if_false] at hT ⊢
        exact h.last j T hT
  | addFrame k f => exact rel_addFrame h hb f ha
  | rmFrame k f => exact rel_rmFrame h hb f ha
  | attach k f g => exact rel_attach h ha.1 ha.2.1 ha.2.2
  | copyFrameGeom k f1 f2 => exact rel_copyFrameGeom h ha.1 ha.2.1 ha.2.2 hc hb'
  | setLimit k c => exact rel_setLimit h ha
  | sgCopy k => exact rel_sgCopy h ha hb'
  | sgDestroy k => exact rel_sgDestroy h hb ha hc
  | dlSg p d k f => exact rel_dlSg h hb ha

theorem rel_run : ∀ (os : List Op) {L : Led} {s : St}, Rel L s → Bounded L → Good L os →
    ∃ s', run s os = .ok s' ∧ Rel (L.after os) s' := by
  intro os
  induction os with
  | nil => intro L s h _ _; exact ⟨s, rfl, h⟩
  | cons o os ih =>
    intro L s h hb hg
    obtain ⟨g1, g2, g3, g4⟩ := hg
    obtain ⟨s1, e1, h1⟩ := rel_step h hb o g1 g2 g3
    obtain ⟨s2, e2, h2⟩ := ih h1 g3 g4
    refine ⟨s2, ?_, h2⟩
    unfold run
    rw [e1]
    exact e2

end Verif.Life
