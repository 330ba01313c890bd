import Verif.Proof.LifeGeom
import Mathlib.Data.Multiset.Filter
import Mathlib.Data.Multiset.Count

/-! The part of the invariant for `Verif.Prop.Life` about scene graphs. -/

namespace Verif.Life

open Finset

variable {s : St} {X : List Nat} {H rG mh : Nat → Nat} {mo : Nat → Option Nat}
  {ar : Nat → Fld → Option Given} {V : Nat → Prop}

/-- Frames are of no concern to `Core`. -/
theorem Core.frames (h : Core s X H rG mh mo ar V) (l : List Frame) :
    Core { s with frames := l } X H rG mh mo ar V :=
  ⟨h.g0, h.g1, h.gN, h.m0, h.m1, h.mN, h.cnt, h.bN, h.dl, h.dlV, h.sV, h.sN, h.lib⟩

/-- What the functions on geometry leave alone. -/
structure Same (s s' : St) : Prop where
  frames : s'.frames = s.frames
  sgs : s'.sgs = s.sgs
  nG : s'.nG = s.nG
  nM : s'.nM = s.nM
  nS : s'.nS = s.nS

theorem Same.rfl' (s : St) : Same s s := ⟨rfl, rfl, rfl, rfl, rfl⟩

theorem Same.trans {a b c : St} (h : Same a b) (k : Same b c) : Same a c :=
  ⟨k.1.trans h.1, k.2.trans h.2, k.3.trans h.3, k.4.trans h.4, k.5.trans h.5⟩

theorem rM_mono {rG' : Nat → Nat} {n : Nat} (h : ∀ g, rG' g ≤ rG g) (k : Nat) :
    rM n rG' mh mo k ≤ rM n rG mh mo k := by
  unfold rM
  refine Nat.add_le_add_left (Finset.sum_le_sum fun g _ => ?_) _
  have := h g
  split
  · rename_i h1
    rw [if_pos ⟨by omega, h1.2⟩]
  · exact Nat.zero_le _

theorem Core.destroyAll : ∀ (l : List Nat) {s : St} {rG : Nat → Nat}, Core s X H rG mh mo ar V →
    (∀ g, l.count g ≤ rG g) → (∀ g, rG g < 2 ^ 32) → (∀ m, rM s.nG rG mh mo m < 2 ^ 32) →
    ∃ s', Life.destroyAll s l = .ok s' ∧ Core s' X H (fun g => rG g - l.count g) mh mo ar V ∧ Same s s' := by
  intro l
  induction l with
  | nil =>
    intro s rG h _ _ _
    exact ⟨s, rfl, by simpa using h, Same.rfl' s⟩
  | cons g l ih =>
    intro s rG h hc hb hbm
    have hg : 0 < rG g := by
      have := hc g
      rw [List.count_cons_self] at this
      omega
    obtain ⟨s1, e1, h1, q2, q3, q4, q5, q6⟩ := h.geomDestroy hg (hb g) hbm
    have hle : ∀ k, upd rG g (rG g - 1) k ≤ rG k := by
      intro k
      by_cases e : k = g
      · subst e; simp [upd]
      · simp [upd, e]
    obtain ⟨s2, e2, h2, r⟩ := ih h1
      (fun k => by
        have := hc k
        rw [List.count_cons] at this
        by_cases e : k = g
        · subst e; simp [upd] at this ⊢; omega
        · have e' : ¬ g = k := fun x => e x.symm
          simpa [upd, e, e'] using this)
      (fun k => lt_of_le_of_lt (hle k) (hb k))
      (fun m => by rw [q4]; exact lt_of_le_of_lt (rM_mono hle m) (hbm m))
    refine ⟨s2, ?_, ?_, Same.trans ⟨q2, q3, q4, q5, q6⟩ r⟩
    · unfold Life.destroyAll
      rw [e1]
      exact e2
    · have : (fun k => rG k - (g :: l).count k) = fun k => upd rG g (rG g - 1) k - l.count k := by
        funext k
        rw [List.count_cons]
        by_cases e : k = g
        · subst e; simp [upd]; omega
        · have e' : ¬ g = k := fun x => e x.symm
          simp [upd, e, e']
      rw [this]
      exact h2

theorem Core.copyAll : ∀ (l : List Nat) {s : St} {rG : Nat → Nat}, Core s X H rG mh mo ar V →
    (∀ g ∈ l, 0 < rG g) → (∀ g, rG g + l.count g < 2 ^ 32) →
    ∃ s', Life.copyAll s l = .ok s' ∧ Core s' X H (fun g => rG g + l.count g) mh mo ar V ∧ Same s s' := by
  intro l
  induction l with
  | nil =>
    intro s rG h _ _
    exact ⟨s, rfl, by simpa using h, Same.rfl' s⟩
  | cons g l ih =>
    intro s rG h hp hb
    have hbg := hb g
    rw [List.count_cons_self] at hbg
    obtain ⟨s1, e1, h1, q2, q3, q4, q5, q6⟩ := h.geomCopy (hp g (by simp)) (by omega)
    have hf : ∀ k, upd rG g (rG g + 1) k + l.count k = rG k + (g :: l).count k := by
      intro k
      rw [List.count_cons]
      by_cases e : k = g
      · subst e; simp [upd]; omega
      · have e' : ¬ g = k := fun x => e x.symm
        simp [upd, e, e']
    obtain ⟨s2, e2, h2, r⟩ := ih h1
      (fun k hk => by
        have := hp k (by simp [hk])
        by_cases e : k = g
        · subst e; simp [upd]
        · simpa [upd, e] using this)
      (fun k => by rw [hf]; exact hb k)
    refine ⟨s2, ?_, ?_, Same.trans ⟨q2, q3, q4, q5, q6⟩ r⟩
    · unfold Life.copyAll
      rw [e1]
      exact e2
    · simp only [hf] at h2
      exact h2

/-! ## Scene graphs -/

theorem Core.newSg (h : Core s X H rG mh mo ar V) (l : List (Nat × Bool)) :
    Core { s with sgs := upd s.sgs s.nS (some ⟨none, l⟩), nS := s.nS + 1 } X H rG mh mo ar V := by
  refine ⟨h.g0, h.g1, h.gN, h.m0, h.m1, h.mN, h.cnt, h.bN, fun p => ?_, h.dlV, fun k S p h1 h2 => ?_,
    fun k hk => ?_, h.lib⟩
  · have k := h.dl p
    have e := sum_new s.nS s.sgs (some ⟨none, l⟩) (fS p)
    have e' : fS p (some ⟨none, l⟩) = 0 := by simp [fS]
    simp only [dlM, dlS] at k ⊢
    omega
  · by_cases e : k = s.nS
    · subst e
      simp only [upd, if_true, Option.some.injEq] at h1
      subst h1
      simp at h2
    · simp only [upd, e, if_false] at h1
      exact h.sV k S p h1 h2
  · dsimp only at hk
    have e : k ≠ s.nS := by omega
    simp only [upd, e, if_false]
    exact h.sN k (by omega)

theorem Core.sg_lt (h : Core s X H rG mh mo ar V) {k : Nat} {S : Sg} (hS : s.sgs k = some S) : k < s.nS := by
  by_contra hc
  rw [h.sN k (by omega)] at hS
  cases hS

/-- A graph is given another destructor, for a plugin held open by the running function. -/
theorem Core.setSg {H' : Nat → Nat} (h : Core s X H rG mh mo ar V) {k : Nat} {S S' : Sg}
    (hS : s.sgs k = some S) (hH : ∀ p, H' p + fS p (some S') = H p + fS p (some S))
    (hV : ∀ p, S'.destr = some p → V p) :
    Core { s with sgs := upd s.sgs k (some S') } X H' rG mh mo ar V := by
  have hlt := h.sg_lt hS
  refine ⟨h.g0, h.g1, h.gN, h.m0, h.m1, h.mN, h.cnt, h.bN, fun p => ?_, h.dlV, fun j T p h1 h2 => ?_,
    fun j hj => ?_, h.lib⟩
  · have a := h.dl p
    have e := sum_upd hlt s.sgs (some S') (fS p)
    rw [hS] at e
    have := hH p
    simp only [dlM, dlS] at a ⊢
    omega
  · by_cases e : j = k
    · subst e
      simp only [upd, if_true, Option.some.injEq] at h1
      subst h1
      exact hV p h2
    · simp only [upd, e, if_false] at h1
      exact h.sV j T p h1 h2
  · have e : j ≠ k := by dsimp only at hj; omega
    simp only [upd, e, if_false]
    exact h.sN j hj

/-- The destructor of a graph, and the graph is gone. -/
theorem Core.dropSg (h : Core s X H rG mh mo ar V) {k : Nat} {S : Sg} (hS : s.sgs k = some S) :
    ∃ dl', runDestr s S.destr = .ok { s with dl := dl' } ∧
      Core { s with dl := dl', sgs := upd s.sgs k none } X H rG mh mo ar V := by
  have hlt := h.sg_lt hS
  have hsN : ∀ j, s.nS ≤ j → upd s.sgs k none j = none := by
    intro j hj
    simp only [upd]
    split
    · rfl
    · exact h.sN j hj
  have hsV : ∀ j T p, upd s.sgs k none j = some T → T.destr = some p → V p := by
    intro j T p h1 h2
    by_cases e : j = k
    · subst e; simp [upd] at h1
    · simp only [upd, e, if_false] at h1
      exact h.sV j T p h1 h2
  cases hd : S.destr with
  | none =>
    refine ⟨s.dl, rfl, h.g0, h.g1, h.gN, h.m0, h.m1, h.mN, h.cnt, h.bN, fun p => ?_, h.dlV, hsV, hsN, h.lib⟩
    have a := h.dl p
    have e := sum_upd hlt s.sgs none (fS p)
    have e' : fS p none = 0 := rfl
    have e2 : fS p (s.sgs k) = 0 := by rw [hS]; simp [fS, hd]
    simp only [dlM, dlS] at a ⊢
    omega
  | some p =>
    have hf : fS p (s.sgs k) = 1 := by rw [hS]; simp [fS, hd]
    have h1 : 1 ≤ s.dl p := by
      have a := h.dl p
      have := sum_ge hlt fun j => fS p (s.sgs j)
      simp only [dlM, dlS] at a
      omega
    refine ⟨upd s.dl p (s.dl p - 1), by
        simp only [runDestr, dlclose]
        rw [if_neg (by omega)], h.g0, h.g1, h.gN,
      h.m0, h.m1, h.mN, h.cnt, h.bN, fun q => ?_, fun q hq => ?_, hsV, hsN, h.lib⟩
    · have a := h.dl q
      have e := sum_upd hlt s.sgs none (fS q)
      have e' : fS q none = 0 := rfl
      simp only [dlM, dlS, upd] at a e ⊢
      by_cases eq : q = p
      · subst eq
        simp only [if_true]
        omega
      · simp only [eq, if_false]
        have eq' : ¬ p = q := fun x => eq x.symm
        have e2 : fS q (s.sgs k) = 0 := by rw [hS]; simp [fS, hd, eq']
        omega
    · have : q ≠ p := fun e => hq (e ▸ h.sV k S p hS hd)
      simp only [upd, this, if_false]
      exact h.dlV q hq

/-! ## What is attached to the frames -/

/-- Attached geometry: graph, frame, object. -/
def at3 : List Frame → Multiset (Nat × Nat × Nat)
  | [] => 0
  | F :: l => (F.geoms.map fun g => (F.sg, F.name, g) : List _) + at3 l

theorem at3_append (l k : List Frame) : at3 (l ++ k) = at3 l + at3 k := by
  induction l with
  | nil => simp [at3]
  | cons F l ih => rw [List.cons_append, at3, at3, ih, add_assoc]

theorem at3_filter (q : Nat → Nat → Bool) (l : List Frame) :
    at3 (l.filter fun F => q F.sg F.name) = (at3 l).filter fun x => q x.1 x.2.1 = true := by
  induction l with
  | nil => rfl
  | cons F l ih =>
    rw [List.filter_cons, at3, Multiset.filter_add, Multiset.filter_coe]
    by_cases h : q F.sg F.name = true
    · rw [if_pos h, at3, ih]
      congr 2
      symm
      rw [List.filter_eq_self]
      intro x hx
      simp only [List.mem_map] at hx
      obtain ⟨g, -, rfl⟩ := hx
      simpa using h
    · rw [if_neg h, ih]
      have : (F.geoms.map fun g => (F.sg, F.name, g)).filter (fun x => decide (q x.1 x.2.1 = true)) = [] := by
        rw [List.filter_eq_nil_iff]
        intro x hx
        simp only [List.mem_map] at hx
        obtain ⟨g, -, rfl⟩ := hx
        simpa using h
      rw [this]
      simp

theorem at3_map (l : List Frame) : ((l.flatMap (·.geoms) : List Nat) : Multiset Nat) = (at3 l).map (·.2.2) := by
  induction l with
  | nil => rfl
  | cons F l ih =>
    rw [List.flatMap_cons, ← Multiset.coe_add, ih, at3, Multiset.map_add, Multiset.map_coe, List.map_map]
    congr 2
    simp [Function.comp_def]

theorem at3_push (k f : Nat) (gs : List Nat) : ∀ l : List Frame, l.any (isAt k f) = true →
    at3 (push k f gs l) = at3 l + ((gs.map fun g => (k, f, g) : List _) : Multiset _) := by
  intro l
  induction l with
  | nil => intro h; simp at h
  | cons F l ih =>
    intro h
    unfold push
    by_cases hF : isAt k f F = true
    · rw [if_pos hF]
      simp only [isAt, Bool.and_eq_true, beq_iff_eq] at hF
      obtain ⟨rfl, rfl⟩ := hF
      simp only [at3, List.map_append, ← Multiset.coe_add]
      rw [add_right_comm]
    · rw [if_neg hF]
      simp only [List.any_cons, Bool.or_eq_true] at h
      rw [at3, at3, ih (h.resolve_left hF), add_assoc]

theorem at3_move (n : Nat) (l : List Frame) :
    at3 (l.map fun F => { F with sg := n }) = (at3 l).map fun x => (n, x.2.1, x.2.2) := by
  induction l with
  | nil => rfl
  | cons F l ih =>
    rw [List.map_cons, at3, ih, at3, Multiset.map_add, Multiset.map_coe, List.map_map]
    rfl

theorem any_push (a b k f : Nat) (gs : List Nat) : ∀ l : List Frame,
    (push k f gs l).any (isAt a b) = l.any (isAt a b) := by
  intro l
  induction l with
  | nil => rfl
  | cons F l ih =>
    unfold push
    split
    · simp [isAt]
    · simp [ih]

theorem sg_push (k f n : Nat) (gs : List Nat) : ∀ l : List Frame, (∀ F ∈ l, F.sg < n) →
    ∀ F ∈ push k f gs l, F.sg < n := by
  intro l
  induction l with
  | nil => intro h F hF; simp [push] at hF
  | cons F l ih =>
    intro h G hG
    unfold push at hG
    split at hG
    · rcases List.mem_cons.1 hG with rfl | hG
      · exact h F (by simp)
      · exact h G (by simp [hG])
    · rcases List.mem_cons.1 hG with rfl | hG
      · exact h G (by simp)
      · exact ih (fun F hF => h F (by simp [hF])) G hG

/-! ## Destructors of meshes are never changed -/

/-- Meshes that are there afterwards were there before, or are new and `new` tells their destructor. -/
def Keeps (s s' : St) : Prop :=
  ∀ m M', s'.meshes m = some M' → ∃ M, s.meshes m = some M ∧ M.destr = M'.destr

theorem Keeps.of_eq {s s' : St} (h : s'.meshes = s.meshes) : Keeps s s' := fun m M' k =>
  ⟨M', by rw [← h]; exact k, rfl⟩

theorem Keeps.trans {a b c : St} (h : Keeps a b) (k : Keeps b c) : Keeps a c := fun m M' e => by
  obtain ⟨M, h1, h2⟩ := k m M' e
  obtain ⟨M0, h3, h4⟩ := h m M h1
  exact ⟨M0, h3, h4.trans h2⟩

theorem Keeps.bind {α : Type} {x : Out α} {f : α → Out St} {s' : St} (h : x.bind f = .ok s') :
    ∃ a, x = .ok a ∧ f a = .ok s' := by
  cases x with
  | ok a => exact ⟨a, rfl, h⟩
  | ub => cases h
  | abort => cases h

theorem Keeps.upd {s s' : St} {m : Nat} {M M1 : Mesh} (hM : s.meshes m = some M) (hd : M1.destr = M.destr)
    (h : s'.meshes = Life.upd s.meshes m (some M1)) : Keeps s s' := by
  intro k M' e
  rw [h] at e
  by_cases c : k = m
  · subst c
    simp only [Life.upd, if_true, Option.some.injEq] at e
    subst e
    exact ⟨M, hM, hd.symm⟩
  · simp only [Life.upd, c, if_false] at e
    exact ⟨M', e, rfl⟩

theorem Keeps.drop {s s' : St} {m : Nat} (h : s'.meshes = Life.upd s.meshes m none) : Keeps s s' := by
  intro k M' e
  rw [h] at e
  by_cases c : k = m
  · subst c; simp [Life.upd] at e
  · simp only [Life.upd, c, if_false] at e
    exact ⟨M', e, rfl⟩

theorem free_meshes {s s' : St} {b : Nat} (h : free s b = .ok s') : s'.meshes = s.meshes := by
  unfold free at h
  split at h
  · cases h
  · cases h; rfl

theorem freeArr_meshes {s s' : St} {a : Arr} (h : freeArr s a = .ok s') : s'.meshes = s.meshes := by
  cases a with
  | owned b => exact free_meshes h
  | null => cases h; rfl
  | client d => cases h; rfl
  | lib p d => cases h; rfl

theorem freeAll_meshes : ∀ (l : List Arr) {s s' : St}, freeAll s l = .ok s' → s'.meshes = s.meshes := by
  intro l
  induction l with
  | nil => intro s s' h; cases h; rfl
  | cons a l ih =>
    intro s s' h
    obtain ⟨s1, h1, h2⟩ := Keeps.bind h
    exact (ih h2).trans (freeArr_meshes h1)

theorem runDestr_meshes {s s' : St} {o : Option Nat} (h : runDestr s o = .ok s') : s'.meshes = s.meshes := by
  cases o with
  | none => cases h; rfl
  | some p =>
    simp only [runDestr, dlclose] at h
    split at h
    · cases h
    · cases h; rfl

theorem keeps_meshDestroy {s s' : St} {m : Nat} (h : meshDestroy s m = .ok s') : Keeps s s' := by
  unfold meshDestroy at h
  split at h
  · cases h
  · rename_i M hM
    split at h
    · obtain ⟨s1, h1, h⟩ := Keeps.bind h
      obtain ⟨s2, h2, h⟩ := Keeps.bind h
      cases h
      exact Keeps.drop (m := m) (by dsimp only; rw [freeAll_meshes _ h2, runDestr_meshes h1])
    · injection h with h
      subst h
      exact Keeps.upd (M1 := { M with rc := refDec M.rc }) hM rfl rfl

theorem keeps_meshSet {s s' : St} {m : Nat} {f : Fld} {src : Src} (h : meshSet s m f src = .ok s') :
    Keeps s s' := by
  unfold meshSet at h
  split at h
  · cases h
  · rename_i M hM
    obtain ⟨s1, h1, h⟩ := Keeps.bind h
    have e := freeArr_meshes h1
    cases src with
    | copy d => cases h; exact Keeps.upd (M1 := setArr M f (.owned s1.nB)) hM rfl (by dsimp only; rw [e])
    | client d => cases h; exact Keeps.upd (M1 := setArr M f (.client d)) hM rfl (by dsimp only; rw [e])

theorem keeps_meshTexture {s s' : St} {m d : Nat} (h : meshTexture s m d = .ok s') : Keeps s s' := by
  unfold meshTexture at h
  obtain ⟨s1, h1, h⟩ := Keeps.bind h
  refine (keeps_meshSet h1).trans ?_
  split at h
  · cases h
  · rename_i M hM
    cases h
    exact Keeps.upd (M1 := setArr M .uv (.owned s1.nB)) hM rfl rfl

theorem keeps_geomMesh {s s' : St} {m : Nat} (h : geomMesh s m = .ok s') : Keeps s s' := by
  unfold geomMesh at h
  split at h
  · cases h
  · rename_i M hM
    cases h
    exact Keeps.upd (M1 := { M with rc := refInc M.rc }) hM rfl rfl

theorem keeps_geomModify {s s' : St} {g : Nat} (h : geomModify s g = .ok s') : Keeps s s' := by
  unfold geomModify at h
  split at h
  · cases h
  · split at h
    · cases h; exact Keeps.of_eq rfl
    · exact keeps_geomMesh h

theorem keeps_geomCopy {s s' : St} {g : Nat} (h : geomCopy s g = .ok s') : Keeps s s' := by
  unfold geomCopy at h
  split at h
  · cases h
  · split at h
    · cases h
    · cases h; exact Keeps.of_eq rfl

theorem keeps_clInit {s s' : St} {g : Nat} (h : clInit s g = .ok s') : Keeps s s' := by
  unfold clInit at h
  split at h
  · cases h
  · split at h <;> · cases h; exact Keeps.of_eq rfl

theorem keeps_glInit {s s' : St} {g : Nat} (h : glInit s g = .ok s') : Keeps s s' := by
  unfold glInit at h
  split at h
  · cases h
  · split at h <;> · cases h; exact Keeps.of_eq rfl

theorem keeps_cleanup {s s' : St} (h : cleanup s = .ok s') : Keeps s s' := by
  have k := freeAll_meshes _ h
  exact Keeps.of_eq k

theorem keeps_geomDestroy {s s' : St} {g : Nat} (h : geomDestroy s g = .ok s') : Keeps s s' := by
  unfold geomDestroy at h
  split at h
  · cases h
  · rename_i G hG
    split at h
    · cases h
    · split at h
      · obtain ⟨s1, h1, h⟩ := Keeps.bind h
        obtain ⟨s2, h2, h⟩ := Keeps.bind h
        cases h
        have k1 : Keeps s s1 := by
          cases hm : G.mesh with
          | none => rw [hm] at h1; cases h1; exact Keeps.of_eq rfl
          | some m =>
            rw [hm] at h1
            have k := keeps_meshDestroy h1
            exact k
        have k2 : s2.meshes = s1.meshes := by
          cases hc : G.cl with
          | none => rw [hc] at h2; cases h2; rfl
          | some b => rw [hc] at h2; exact free_meshes h2
        refine k1.trans (Keeps.of_eq ?_)
        rw [← k2]
        cases G.gl <;> rfl
      · cases h; exact Keeps.of_eq rfl

theorem keeps_destroyAll : ∀ (l : List Nat) {s s' : St}, destroyAll s l = .ok s' → Keeps s s' := by
  intro l
  induction l with
  | nil => intro s s' h; cases h; exact Keeps.of_eq rfl
  | cons g l ih =>
    intro s s' h
    obtain ⟨s1, h1, h2⟩ := Keeps.bind h
    exact (keeps_geomDestroy h1).trans (ih h2)

theorem keeps_copyAll : ∀ (l : List Nat) {s s' : St}, copyAll s l = .ok s' → Keeps s s' := by
  intro l
  induction l with
  | nil => intro s s' h; cases h; exact Keeps.of_eq rfl
  | cons g l ih =>
    intro s s' h
    obtain ⟨s1, h1, h2⟩ := Keeps.bind h
    exact (keeps_geomCopy h1).trans (ih h2)

theorem keeps_rmFrame {s s' : St} {k f : Nat} (h : rmFrame s k f = .ok s') : Keeps s s' := by
  unfold rmFrame at h
  split at h
  · cases h
  · have k := keeps_destroyAll _ h
    exact k

theorem keeps_addFrame {s s' : St} {k f : Nat} (h : addFrame s k f = .ok s') : Keeps s s' := by
  obtain ⟨s1, h1, h⟩ := Keeps.bind h
  cases h
  exact (keeps_rmFrame h1).trans (Keeps.of_eq rfl)

theorem attach_meshes {s s' : St} {k f g : Nat} (h : attach s k f g = .ok s') : s'.meshes = s.meshes := by
  unfold attach at h
  split at h
  · cases h
  · split at h
    · cases h; rfl
    · cases h

theorem keeps_copyFrameGeom {s s' : St} {k f1 f2 : Nat} (h : copyFrameGeom s k f1 f2 = .ok s') :
    Keeps s s' := by
  unfold copyFrameGeom at h
  split at h
  · cases h
  · dsimp only at h
    split at h
    · obtain ⟨s1, h1, h⟩ := Keeps.bind h
      cases h
      exact (keeps_copyAll _ h1).trans (Keeps.of_eq rfl)
    · cases h

theorem keeps_setLimit {s s' : St} {k c : Nat} (h : setLimit s k c = .ok s') : Keeps s s' := by
  unfold setLimit at h
  split at h
  · cases h
  · split at h <;> · cases h; exact Keeps.of_eq rfl

theorem keeps_sgCopy {s s' : St} {k : Nat} (h : sgCopy s k = .ok s') : Keeps s s' := by
  unfold sgCopy at h
  split at h
  · cases h
  · dsimp only at h
    obtain ⟨s1, h1, h⟩ := Keeps.bind h
    cases h
    exact (keeps_copyAll _ h1).trans (Keeps.of_eq rfl)

theorem keeps_sgDestroy {s s' : St} {k : Nat} (h : sgDestroy s k = .ok s') : Keeps s s' := by
  unfold sgDestroy at h
  split at h
  · cases h
  · obtain ⟨s1, h1, h⟩ := Keeps.bind h
    obtain ⟨s2, h2, h⟩ := Keeps.bind h
    split at h
    · cases h
    · cases h
      have k1 := runDestr_meshes h1
      have k2 := keeps_destroyAll _ h2
      exact (Keeps.of_eq k1).trans k2

/-- Loading a graph: the mesh made on the way has no destructor. -/
theorem dlSg_destr {s s' : St} {p d k f : Nat} (h : dlSg s p d k f = .ok s')
    (hn0 : ∀ s1, addFrame { s with dl := upd s.dl p (s.dl p + 1) } k f = .ok s1 → s1.nM = s.nM) (m : Nat)
    (M' : Mesh) (hM : s'.meshes m = some M') :
    (m = s.nM ∧ M'.destr = none) ∨ ∃ M, s.meshes m = some M ∧ M.destr = M'.destr := by
  unfold dlSg at h
  dsimp only at h
  obtain ⟨s1, h1, h⟩ := Keeps.bind h
  obtain ⟨s2, h2, h⟩ := Keeps.bind h
  obtain ⟨s3, h3, h⟩ := Keeps.bind h
  obtain ⟨s4, h4, h⟩ := Keeps.bind h
  have k5 : Keeps s4 s' := by
    split at h
    · cases h
    · cases h; exact Keeps.of_eq rfl
  have k := ((keeps_geomMesh h2).trans ((Keeps.of_eq (attach_meshes h3)).trans
    (keeps_meshDestroy h4))).trans k5
  obtain ⟨M, e1, e2⟩ := k m M' hM
  dsimp only at e1
  have e0 := hn0 s1 h1
  by_cases c : m = s1.nM
  · subst c
    simp only [upd, if_true, Option.some.injEq] at e1
    subst e1
    exact .inl ⟨e0, e2.symm⟩
  · simp only [upd, c, if_false] at e1
    obtain ⟨M0, e3, e4⟩ := keeps_addFrame h1 m M e1
    exact .inr ⟨M0, e3, e4.trans e2⟩

end Verif.Life
