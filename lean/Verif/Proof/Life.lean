import Verif.Model.Life
import Mathlib.Algebra.BigOperators.Group.Finset.Basic
import Mathlib.Algebra.BigOperators.Intervals
import Mathlib.Algebra.Order.BigOperators.Group.Finset
import Mathlib.Tactic.Ring

/-! Invariant for `Verif.Prop.Life`: counts equal numbers of references, every block has one owner. -/

namespace Verif.Life

open Finset

/-- Contents of an array and how they were given. -/
inductive Given where
  | own (d : Nat)
  | client (d : Nat)
  | lib (p d : Nat)
deriving DecidableEq

def given (s : St) : Arr → Option Given
  | .null => none
  | .owned b => (s.blocks b).map .own
  | .client d => some (.client d)
  | .lib p d => some (.lib p d)

theorem sum_change {n i : Nat} (hi : i < n) (f f' : Nat → Nat) (h : ∀ j, j ≠ i → f' j = f j) :
    ∑ j ∈ range n, f' j + f i = ∑ j ∈ range n, f j + f' i := by
  rw [← Finset.add_sum_erase _ f' (mem_range.2 hi), ← Finset.add_sum_erase _ f (mem_range.2 hi)]
  have : ∑ j ∈ (range n).erase i, f' j = ∑ j ∈ (range n).erase i, f j :=
    Finset.sum_congr rfl fun j hj => h j (Finset.mem_erase.1 hj).1
  rw [this]
  omega

theorem sum_upd {α : Type} {n i : Nat} (hi : i < n) (f : Nat → α) (x : α) (F : α → Nat) :
    ∑ j ∈ range n, F (upd f i x j) + F (f i) = ∑ j ∈ range n, F (f j) + F x := by
  have := sum_change hi (fun j => F (f j)) (fun j => F (upd f i x j))
    (fun j hj => by simp [upd, hj])
  simpa [upd] using this

theorem sum_new {α : Type} (n : Nat) (f : Nat → α) (x : α) (F : α → Nat) :
    ∑ j ∈ range (n + 1), F (upd f n x j) = ∑ j ∈ range n, F (f j) + F x := by
  rw [Finset.sum_range_succ]
  congr 1
  · refine Finset.sum_congr rfl fun j hj => ?_
    have : j ≠ n := (mem_range.1 hj).ne
    simp [upd, this]
  · simp [upd]

theorem sum_ge {n i : Nat} (hi : i < n) (f : Nat → Nat) : f i ≤ ∑ j ∈ range n, f j :=
  Finset.single_le_sum (f := f) (fun _ _ => Nat.zero_le _) (mem_range.2 hi)

/-- References to a mesh, from the number of handles and of live geometry objects. -/
def rM (n : Nat) (rG mh : Nat → Nat) (mo : Nat → Option Nat) (m : Nat) : Nat :=
  mh m + ∑ g ∈ range n, if 0 < rG g ∧ mo g = some m then 1 else 0

def arrs (M : Mesh) : List Arr :=
  [M.arr .vertices, M.arr .normals, M.arr .indices, M.arr .rgba, M.arr .uv]

/-- Whether a block is allocated. -/
def al : Option Nat → Nat
  | none => 0
  | some _ => 1

/-- How often a mesh owns a block. -/
def fM (b : Nat) : Option Mesh → Nat
  | none => 0
  | some M => (arrs M).count (.owned b)

/-- How often a geometry object owns a block. -/
def fG (b : Nat) : Option Geom → Nat
  | none => 0
  | some G => (if G.cl = some b then 1 else 0) + if G.gl = some b then 1 else 0

def fD (p : Nat) : Option Mesh → Nat
  | none => 0
  | some M => if M.destr = some p then 1 else 0

def fS (p : Nat) : Option Sg → Nat
  | none => 0
  | some S => if S.destr = some p then 1 else 0

/-- Owners of a block; `X` are held by the running function (as are `H p` openings of the plugin `p`
below). -/
def cnt (s : St) (X : List Nat) (b : Nat) : Nat :=
  ∑ m ∈ range s.nM, fM b (s.meshes m) + ∑ g ∈ range s.nG, fG b (s.geoms g) + s.dead.count b + X.count b

def dlM (s : St) (p : Nat) : Nat := ∑ m ∈ range s.nM, fD p (s.meshes m)

def dlS (s : St) (p : Nat) : Nat := ∑ k ∈ range s.nS, fS p (s.sgs k)

structure Core (s : St) (X : List Nat) (H rG mh : Nat → Nat) (mo : Nat → Option Nat)
    (ar : Nat → Fld → Option Given) (V : Nat → Prop) : Prop where
  g0 : ∀ g, rG g = 0 → s.geoms g = none
  g1 : ∀ g, 0 < rG g → ∃ G, s.geoms g = some G ∧ G.rc = rG g ∧ G.mesh = mo g
  gN : ∀ g, s.nG ≤ g → rG g = 0
  m0 : ∀ m, rM s.nG rG mh mo m = 0 → s.meshes m = none
  m1 : ∀ m, 0 < rM s.nG rG mh mo m → ∃ M, s.meshes m = some M ∧ M.rc = rM s.nG rG mh mo m ∧
    ∀ f, given s (M.arr f) = ar m f
  mN : ∀ m, s.nM ≤ m → rM s.nG rG mh mo m = 0
  cnt : ∀ b, cnt s X b = al (s.blocks b)
  bN : ∀ b, s.nB ≤ b → s.blocks b = none
  dl : ∀ p, dlM s p + dlS s p + H p = s.dl p
  dlV : ∀ p, ¬ V p → s.dl p = dlM s p
  sV : ∀ k S p, s.sgs k = some S → S.destr = some p → V p
  sN : ∀ k, s.nS ≤ k → s.sgs k = none
  lib : ∀ m M f p d, s.meshes m = some M → M.arr f = .lib p d → M.destr = some p ∨ V p

variable {s : St} {X : List Nat} {H rG mh : Nat → Nat} {mo : Nat → Option Nat}
  {ar : Nat → Fld → Option Given} {V : Nat → Prop}

theorem Core.lt_nG (h : Core s X H rG mh mo ar V) {g : Nat} (hg : 0 < rG g) : g < s.nG := by
  by_contra hc
  have := h.gN g (by omega)
  omega

theorem Core.lt_nM (h : Core s X H rG mh mo ar V) {m : Nat} (hm : 0 < rM s.nG rG mh mo m) : m < s.nM := by
  by_contra hc
  have := h.mN m (by omega)
  omega

theorem Core.mesh_lt (h : Core s X H rG mh mo ar V) {m : Nat} {M : Mesh} (hm : s.meshes m = some M) :
    m < s.nM ∧ 0 < rM s.nG rG mh mo m := by
  have : 0 < rM s.nG rG mh mo m := by
    by_contra hc
    have := h.m0 m (by omega)
    rw [hm] at this
    cases this
  exact ⟨h.lt_nM this, this⟩

theorem Core.geom_lt (h : Core s X H rG mh mo ar V) {g : Nat} {G : Geom} (hg : s.geoms g = some G) :
    g < s.nG ∧ 0 < rG g := by
  have : 0 < rG g := by
    by_contra hc
    have := h.g0 g (by omega)
    rw [hg] at this
    cases this
  exact ⟨h.lt_nG this, this⟩

/-! ## Releasing blocks -/

theorem freeAll_ok : ∀ (l : List Arr) (s : St),
    (∀ b, l.count (.owned b) ≤ al (s.blocks b)) →
    freeAll s l = .ok { s with blocks := fun b => if 0 < l.count (.owned b) then none else s.blocks b } := by
  intro l
  induction l with
  | nil => intro s _; simp [freeAll]
  | cons a l ih =>
    intro s h
    have other : (∀ b, a ≠ .owned b) → freeAll s (a :: l) =
        .ok { s with blocks := fun b => if 0 < (a :: l).count (.owned b) then none else s.blocks b } := by
      intro ha
      have hf : freeArr s a = .ok s := by cases a <;> first | rfl | exact absurd rfl (ha _)
      have hc : ∀ b, (a :: l).count (.owned b) = l.count (.owned b) := fun b => by
        rw [List.count_cons_of_ne (ha b)]
      simp only [freeAll, hf, Out.bind]
      rw [ih s (fun b => by have := h b; rw [hc] at this; exact this)]
      simp only [hc]
    cases a with
    | null => exact other (by simp)
    | client d => exact other (by simp)
    | lib p d => exact other (by simp)
    | owned b =>
      have hb := h b
      rw [List.count_cons_self] at hb
      obtain ⟨d, hd⟩ : ∃ d, s.blocks b = some d := by
        cases hx : s.blocks b with
        | none => rw [hx] at hb; simp [al] at hb
        | some d => exact ⟨d, rfl⟩
      have hlb : l.count (.owned b) = 0 := by
        rw [hd] at hb; simp only [al] at hb
        omega
      simp only [freeAll, freeArr, free, hd, Out.bind]
      rw [ih _ (fun c => by
        have := h c
        by_cases hcb : c = b
        · subst hcb; rw [hlb]; exact Nat.zero_le _
        · rw [List.count_cons_of_ne (by simpa using fun e => hcb e.symm)] at this
          simpa [upd, hcb] using this)]
      congr 2
      funext c
      by_cases hcb : c = b
      · subst hcb; simp [upd]
      · rw [List.count_cons_of_ne (by simpa using fun e => hcb e.symm)]
        simp [upd, hcb]

theorem arrs_mem (M : Mesh) (f : Fld) : M.arr f ∈ arrs M := by cases f <;> simp [arrs]

theorem given_owned {s s' : St} {a : Arr} (h : ∀ b, a = .owned b → s'.blocks b = s.blocks b) :
    given s' a = given s a := by
  cases a with
  | owned b => simp only [given, h b rfl]
  | _ => rfl

/-- A block held by the running function is released. -/
theorem Core.release {b : Nat} (h : Core s (b :: X) H rG mh mo ar V) :
    free s b = .ok { s with blocks := upd s.blocks b none } ∧
    Core { s with blocks := upd s.blocks b none } X H rG mh mo ar V := by
  have hc := h.cnt b
  obtain ⟨d, hd⟩ : ∃ d, s.blocks b = some d := by
    cases hx : s.blocks b with
    | none => rw [hx] at hc; simp [Life.cnt, al] at hc
    | some d => exact ⟨d, rfl⟩
  rw [hd] at hc
  simp only [Life.cnt, al, List.count_cons_self] at hc
  refine ⟨by simp [free, hd], h.g0, h.g1, h.gN, h.m0, fun m hm => ?_, h.mN, fun c => ?_, fun c hcN => ?_,
    h.dl, h.dlV, h.sV, h.sN, h.lib⟩
  · obtain ⟨M, h1, h2, h3⟩ := h.m1 m hm
    refine ⟨M, h1, h2, fun f => ?_⟩
    rw [← h3 f]
    refine given_owned fun c hcf => ?_
    have : c ≠ b := by
      rintro rfl
      have k1 := sum_ge (h.lt_nM hm) (fun m => fM c (s.meshes m))
      have k2 : 0 < fM c (s.meshes m) := by
        rw [h1]
        exact List.count_pos_iff.2 (hcf ▸ arrs_mem M f)
      omega
    simp [upd, this]
  · have k := h.cnt c
    by_cases hcb : c = b
    · subst hcb
      simp only [Life.cnt, upd, if_true, al]
      omega
    · simp only [Life.cnt] at k ⊢
      rw [List.count_cons_of_ne (fun e => hcb e.symm)] at k
      simp only [upd, hcb, if_false]
      exact k
  · simp only [upd]
    split
    · rfl
    · exact h.bN c hcN

/-! ## Meshes -/

theorem rM_dec {n m : Nat} (hm : 0 < mh m) (k : Nat) :
    rM n rG (upd mh m (mh m - 1)) mo k = if k = m then rM n rG mh mo m - 1 else rM n rG mh mo k := by
  unfold rM upd
  split
  · rename_i e; subst e; omega
  · rfl

theorem refDec_eq {n : Nat} (h : 0 < n) (h' : n < 2 ^ 32) : refDec n = n - 1 := by
  unfold refDec
  have : n + (2 ^ 32 - 1) = (n - 1) + 2 ^ 32 := by omega
  rw [this, Nat.add_mod_right, Nat.mod_eq_of_lt (by omega)]

theorem refInc_eq {n : Nat} (h' : n + 1 < 2 ^ 32) : refInc n = n + 1 := by
  unfold refInc
  exact Nat.mod_eq_of_lt h'

/-- A change of the count of a mesh. -/
theorem Core.setRc (h : Core s X H rG mh mo ar V) {m : Nat} {M : Mesh} (hM : s.meshes m = some M)
    (n : Nat) {mh' : Nat → Nat} (hn : rM s.nG rG mh' mo m = n) (h0 : 0 < n)
    (ho : ∀ k, k ≠ m → rM s.nG rG mh' mo k = rM s.nG rG mh mo k) :
    Core { s with meshes := upd s.meshes m (some { M with rc := n }) } X H rG mh' mo ar V := by
  obtain ⟨hlt, hpos⟩ := h.mesh_lt hM
  refine ⟨h.g0, h.g1, h.gN, fun k hk => ?_, fun k hk => ?_, fun k hk => ?_, fun b => ?_, h.bN, fun p => ?_,
    fun p hp => ?_, h.sV, h.sN, ?_⟩
  · dsimp only at hk ⊢
    by_cases e : k = m
    · subst e; omega
    · simp only [upd, e, if_false]
      exact h.m0 k (by rw [← ho k e]; exact hk)
  · dsimp only at hk ⊢
    by_cases e : k = m
    · subst e
      obtain ⟨M', k1, k2, k3⟩ := h.m1 k hpos
      rw [hM] at k1
      cases k1
      exact ⟨{ M with rc := n }, by simp [upd], hn.symm, k3⟩
    · simp only [upd, e, if_false]
      rw [ho k e] at hk ⊢
      exact h.m1 k hk
  · dsimp only at hk ⊢
    have e : k ≠ m := by omega
    rw [ho k e]
    exact h.mN k hk
  · have k := h.cnt b
    have e := sum_upd hlt s.meshes (some { M with rc := n }) (fM b)
    rw [hM] at e
    have e' : fM b (some { M with rc := n }) = fM b (some M) := rfl
    simp only [Life.cnt] at k ⊢
    omega
  · have k := h.dl p
    have e := sum_upd hlt s.meshes (some { M with rc := n }) (fD p)
    rw [hM] at e
    have e' : fD p (some { M with rc := n }) = fD p (some M) := rfl
    simp only [dlM, dlS] at k ⊢
    omega
  · have k := h.dlV p hp
    have e := sum_upd hlt s.meshes (some { M with rc := n }) (fD p)
    rw [hM] at e
    have e' : fD p (some { M with rc := n }) = fD p (some M) := rfl
    simp only [dlM] at k ⊢
    omega
  · intro k M' f p d k1 k2
    dsimp only at k1
    by_cases e : k = m
    · subst e
      simp only [upd, if_true] at k1
      cases k1
      exact h.lib k M f p d hM k2
    · simp only [upd, e, if_false] at k1
      exact h.lib k M' f p d k1 k2

theorem Core.meshDestroy (h : Core s X H rG mh mo ar V) {m : Nat} (hm : 0 < mh m)
    (hb : rM s.nG rG mh mo m < 2 ^ 32) :
    ∃ s', Life.meshDestroy s m = .ok s' ∧ Core s' X H rG (upd mh m (mh m - 1)) mo ar V ∧
      s'.geoms = s.geoms ∧ s'.frames = s.frames ∧ s'.sgs = s.sgs ∧ s'.nG = s.nG ∧ s'.nM = s.nM ∧
      s'.nS = s.nS ∧ s'.dead = s.dead := by
  have hpos : 0 < rM s.nG rG mh mo m := by unfold rM; omega
  obtain ⟨M, hM, hrc, har⟩ := h.m1 m hpos
  have hlt := h.lt_nM hpos
  unfold Life.meshDestroy
  rw [hM]
  dsimp only
  by_cases h1 : M.rc = 1
  · rw [if_pos h1]
    have hz : rM s.nG rG (upd mh m (mh m - 1)) mo m = 0 := by rw [rM_dec hm, if_pos rfl]; omega
    -- the destructor
    obtain ⟨dl', e1, e2⟩ : ∃ dl' : Nat → Nat, runDestr s M.destr = .ok { s with dl := dl' } ∧
        ∀ p, s.dl p = dl' p + fD p (some M) := by
      cases hd : M.destr with
      | none => exact ⟨s.dl, rfl, fun p => by simp [fD, hd]⟩
      | some p =>
        have k := h.dl p
        have k' := sum_ge hlt (fun m => fD p (s.meshes m))
        rw [hM] at k'
        have k2 : fD p (some M) = 1 := by simp [fD, hd]
        have hne : s.dl p ≠ 0 := by unfold dlM at k; omega
        refine ⟨upd s.dl p (s.dl p - 1), by simp [runDestr, dlclose, hne], fun q => ?_⟩
        by_cases e : q = p
        · subst e; simp [upd, fD, hd]; omega
        · have e' : ¬ p = q := fun x => e x.symm
          simp [upd, fD, hd, e, e']
    rw [e1]
    dsimp only [Out.bind]
    -- the arrays
    have hcnt : ∀ b, (arrs M).count (.owned b) ≤ al (s.blocks b) := by
      intro b
      rw [← h.cnt b]
      have k' := sum_ge hlt (fun m => fM b (s.meshes m))
      rw [hM] at k'
      have : fM b (some M) = (arrs M).count (.owned b) := rfl
      unfold Life.cnt
      omega
    have e3 := freeAll_ok (arrs M) { s with dl := dl' } hcnt
    unfold arrs at e3
    rw [e3]
    dsimp only
    refine ⟨_, rfl, ⟨h.g0, h.g1, h.gN, fun k hk => ?_, fun k hk => ?_, fun k hk => ?_, fun b => ?_,
      fun b hbN => ?_, fun p => ?_, fun p hp => ?_, h.sV, h.sN, ?_⟩, rfl, rfl, rfl, rfl, rfl, rfl, rfl⟩
    · dsimp only at hk ⊢
      rw [rM_dec hm] at hk
      by_cases e : k = m
      · simp [upd, e]
      · rw [if_neg e] at hk
        simp only [upd, e, if_false]
        exact h.m0 k hk
    · dsimp only at hk ⊢
      have e : k ≠ m := by rintro rfl; omega
      rw [rM_dec hm, if_neg e] at hk ⊢
      obtain ⟨M', k1, k2, k3⟩ := h.m1 k hk
      refine ⟨M', by simp only [upd, e, if_false]; exact k1, k2, fun f => ?_⟩
      rw [← k3 f]
      refine given_owned fun c hcf => ?_
      have hno : (arrs M).count (.owned c) = 0 := by
        have q := h.cnt c
        have q1 := sum_change hlt (fun j => fM c (s.meshes j)) (fun j => if j = m then 0 else fM c (s.meshes j))
          (fun j hj => by simp [hj])
        have q2 := sum_ge (h.lt_nM hk) (fun j => if j = m then 0 else fM c (s.meshes j))
        simp only [e, if_false, if_true] at q1 q2
        have q3 : 0 < fM c (s.meshes k) := by
          rw [k1]
          exact List.count_pos_iff.2 (hcf ▸ arrs_mem M' f)
        rw [hM] at q1
        have : fM c (some M) = (arrs M).count (.owned c) := rfl
        have q4 : al (s.blocks c) ≤ 1 := by unfold al; split <;> omega
        unfold Life.cnt at q
        omega
      show (if 0 < (arrs M).count (.owned c) then none else s.blocks c) = s.blocks c
      rw [hno]
      rfl
    · dsimp only at hk ⊢
      have e : k ≠ m := by omega
      rw [rM_dec hm, if_neg e]
      exact h.mN k hk
    · have q := h.cnt b
      have q1 := sum_upd hlt s.meshes none (fM b)
      rw [hM] at q1
      have q2 : fM b (some M) = (arrs M).count (.owned b) := rfl
      have q3 : fM b none = 0 := rfl
      show Life.cnt _ X b = al (if 0 < (arrs M).count (.owned b) then none else s.blocks b)
      have q4 : al (s.blocks b) ≤ 1 := by unfold al; split <;> omega
      unfold Life.cnt at q ⊢
      dsimp only
      split
      · simp only [al]; omega
      · omega
    · show (if 0 < (arrs M).count (.owned b) then none else s.blocks b) = none
      split
      · rfl
      · exact h.bN b hbN
    · have q := h.dl p
      have q1 := sum_upd hlt s.meshes none (fD p)
      rw [hM] at q1
      have q3 : fD p none = 0 := rfl
      have q4 := e2 p
      simp only [dlM, dlS] at q ⊢
      omega
    · have q := h.dlV p hp
      have q1 := sum_upd hlt s.meshes none (fD p)
      rw [hM] at q1
      have q3 : fD p none = 0 := rfl
      have q4 := e2 p
      simp only [dlM] at q ⊢
      omega
    · intro k M' f p d k1 k2
      dsimp only at k1
      by_cases e : k = m
      · simp [upd, e] at k1
      · simp only [upd, e, if_false] at k1
        exact h.lib k M' f p d k1 k2
  · rw [if_neg h1]
    refine ⟨_, rfl, ?_, rfl, rfl, rfl, rfl, rfl, rfl, rfl⟩
    rw [refDec_eq (by omega) (by omega)]
    refine h.setRc hM _ ?_ (by omega) (fun k hk => by rw [rM_dec hm, if_neg hk])
    rw [rM_dec hm, if_pos rfl, hrc]

/-! ## Arrays -/

def ownedList : Arr → List Nat
  | .owned b => [b]
  | _ => []

def updAr (ar : Nat → Fld → Option Given) (m : Nat) (f : Fld) (x : Option Given) :
    Nat → Fld → Option Given :=
  fun k g => if k = m ∧ g = f then x else ar k g

theorem count_setArr (M : Mesh) (f : Fld) (a : Arr) (b : Nat) :
    (arrs (setArr M f a)).count (.owned b) + (ownedList (M.arr f)).count b =
      (arrs M).count (.owned b) + (ownedList a).count b := by
  have e : ∀ a : Arr, (ownedList a).count b = [a].count (.owned b) := by
    intro a
    cases a <;> simp [ownedList]
    rename_i c
    by_cases h : c = b <;> simp [h]
  rw [e, e]
  cases f <;> simp [arrs, setArr, List.count_cons] <;> omega

/-- An array is replaced; the running function had the new data, and has the old ones after. -/
theorem Core.swap {a : Arr} (h : Core s (ownedList a ++ X) H rG mh mo ar V) {m : Nat} {M : Mesh}
    (hM : s.meshes m = some M) (f : Fld) (hl : ∀ p d, a ≠ .lib p d) :
    Core { s with meshes := upd s.meshes m (some (setArr M f a)) } (ownedList (M.arr f) ++ X) H rG mh mo
      (updAr ar m f (given s a)) V := by
  obtain ⟨hlt, hpos⟩ := h.mesh_lt hM
  refine ⟨h.g0, h.g1, h.gN, fun k hk => ?_, fun k hk => ?_, h.mN, fun b => ?_, h.bN, fun p => ?_,
    fun p hp => ?_, h.sV, h.sN, ?_⟩
  · dsimp only at hk ⊢
    have e : k ≠ m := by rintro rfl; omega
    simp only [upd, e, if_false]
    exact h.m0 k hk
  · dsimp only at hk ⊢
    by_cases e : k = m
    · subst e
      obtain ⟨M', k1, k2, k3⟩ := h.m1 k hpos
      rw [hM] at k1
      cases k1
      refine ⟨setArr M f a, by simp [upd], k2, fun g => ?_⟩
      by_cases e : g = f
      · subst e
        simp [setArr, updAr]
        exact given_owned fun _ _ => rfl
      · simp only [setArr, updAr, e, and_false, if_false]
        rw [← k3 g]
        exact given_owned fun _ _ => rfl
    · obtain ⟨M', k1, k2, k3⟩ := h.m1 k hk
      refine ⟨M', by simp only [upd, e, if_false]; exact k1, k2, fun g => ?_⟩
      simp only [updAr, e, false_and, if_false]
      rw [← k3 g]
      exact given_owned fun _ _ => rfl
  · have k := h.cnt b
    have e := sum_upd hlt s.meshes (some (setArr M f a)) (fM b)
    rw [hM] at e
    have e1 := count_setArr M f a b
    have e2 : fM b (some (setArr M f a)) = (arrs (setArr M f a)).count (.owned b) := rfl
    have e3 : fM b (some M) = (arrs M).count (.owned b) := rfl
    simp only [Life.cnt, List.count_append] at k ⊢
    omega
  · have k := h.dl p
    have e := sum_upd hlt s.meshes (some (setArr M f a)) (fD p)
    rw [hM] at e
    have e' : fD p (some (setArr M f a)) = fD p (some M) := rfl
    simp only [dlM, dlS] at k ⊢
    omega
  · have k := h.dlV p hp
    have e := sum_upd hlt s.meshes (some (setArr M f a)) (fD p)
    rw [hM] at e
    have e' : fD p (some (setArr M f a)) = fD p (some M) := rfl
    simp only [dlM] at k ⊢
    omega
  · intro k M' g p d k1 k2
    dsimp only at k1
    by_cases e : k = m
    · subst e
      simp only [upd, if_true, Option.some.injEq] at k1
      subst k1
      simp only [setArr] at k2 ⊢
      split at k2
      · exact absurd k2 (hl p d)
      · exact h.lib k M g p d hM k2
    · simp only [upd, e, if_false] at k1
      exact h.lib k M' g p d k1 k2

/-- A new block is held by the running function. -/
theorem Core.malloc (h : Core s X H rG mh mo ar V) (d : Nat) :
    Core (malloc s d).1 (s.nB :: X) H rG mh mo ar V := by
  have hz := h.cnt s.nB
  rw [h.bN s.nB (le_refl _)] at hz
  simp only [Life.cnt, al] at hz
  refine ⟨h.g0, h.g1, h.gN, h.m0, fun m hm => ?_, h.mN, fun c => ?_, fun c hcN => ?_,
    h.dl, h.dlV, h.sV, h.sN, h.lib⟩
  · obtain ⟨M, h1, h2, h3⟩ := h.m1 m hm
    refine ⟨M, h1, h2, fun f => ?_⟩
    rw [← h3 f]
    refine given_owned fun c hcf => ?_
    have : c ≠ s.nB := by
      rintro rfl
      have k1 := sum_ge (h.lt_nM hm) (fun m => fM s.nB (s.meshes m))
      have k2 : 0 < fM s.nB (s.meshes m) := by
        rw [h1]
        exact List.count_pos_iff.2 (hcf ▸ arrs_mem M f)
      omega
    simp [Life.malloc, upd, this]
  · have k := h.cnt c
    by_cases hcb : c = s.nB
    · subst hcb
      simp only [Life.cnt, Life.malloc, upd, if_true, al, List.count_cons_self]
      omega
    · simp only [Life.cnt, Life.malloc] at k ⊢
      rw [List.count_cons_of_ne (fun e => hcb e.symm)]
      simp only [upd, hcb, if_false]
      exact k
  · simp only [Life.malloc] at hcN ⊢
    have : c ≠ s.nB := by omega
    simp only [upd, this, if_false]
    exact h.bN c (by omega)

theorem upd_upd {α : Type} (f : Nat → α) (i : Nat) (x y : α) : upd (upd f i x) i y = upd f i y := by
  funext j
  by_cases h : j = i <;> simp [upd, h]

theorem setArr_setArr (M : Mesh) (f : Fld) (a b : Arr) : setArr (setArr M f a) f b = setArr M f b := by
  simp only [setArr, Mesh.mk.injEq, true_and, and_true]
  funext g
  by_cases h : g = f <;> simp [h]

theorem updAr_updAr (m : Nat) (f : Fld) (x y : Option Given) :
    updAr (updAr ar m f x) m f y = updAr ar m f y := by
  funext k g
  simp only [updAr]
  split <;> rfl

def srcGiven : Src → Given
  | .copy d => .own d
  | .client d => .client d

theorem Core.meshSet (h : Core s X H rG mh mo ar V) {m : Nat} (hm : 0 < rM s.nG rG mh mo m) (f : Fld)
    (src : Src) : ∃ s', Life.meshSet s m f src = .ok s' ∧
      Core s' X H rG mh mo (updAr ar m f (some (srcGiven src))) V ∧
      s'.geoms = s.geoms ∧ s'.frames = s.frames ∧ s'.sgs = s.sgs ∧ s'.nG = s.nG ∧ s'.nM = s.nM ∧
      s'.nS = s.nS ∧ s'.dead = s.dead := by
  obtain ⟨M, hM, hrc, har⟩ := h.m1 m hm
  unfold Life.meshSet
  rw [hM]
  dsimp only
  -- the old data
  obtain ⟨bl, e1, h1⟩ : ∃ bl, freeArr s (M.arr f) = .ok { s with blocks := bl } ∧
      Core { s with blocks := bl, meshes := upd s.meshes m (some (setArr M f .null)) } X H rG mh mo
        (updAr ar m f none) V := by
    have h0 := Core.swap (a := .null) (X := X) h hM f (by simp)
    cases ha : M.arr f with
    | owned b =>
      rw [ha] at h0
      obtain ⟨k1, k2⟩ := h0.release
      have : free s b = .ok { s with blocks := upd s.blocks b none } := by
        unfold free at k1 ⊢
        dsimp only at k1
        cases hb : s.blocks b with
        | none => rw [hb] at k1; simp at k1
        | some d => rfl
      exact ⟨_, this, k2⟩
    | null => rw [ha] at h0; exact ⟨s.blocks, rfl, h0⟩
    | client d => rw [ha] at h0; exact ⟨s.blocks, rfl, h0⟩
    | lib p d => rw [ha] at h0; exact ⟨s.blocks, rfl, h0⟩
  rw [e1]
  dsimp only [Out.bind]
  have hM1 : ({ s with blocks := bl, meshes := upd s.meshes m (some (setArr M f .null)) } : St).meshes m =
      some (setArr M f .null) := by simp [upd]
  have hnull : (setArr M f .null).arr f = .null := by simp [setArr]
  cases src with
  | client d =>
    have h2 := Core.swap (a := .client d) (X := X) h1 hM1 f (by simp)
    rw [hnull, setArr_setArr, updAr_updAr] at h2
    simp only [upd_upd] at h2
    exact ⟨_, rfl, h2, rfl, rfl, rfl, rfl, rfl, rfl, rfl⟩
  | copy d =>
    have h2 := Core.swap (a := .owned s.nB) (X := X) (h1.malloc d) (m := m) (M := setArr M f .null)
      (by simp [Life.malloc, upd]) f (by simp)
    rw [hnull, setArr_setArr, updAr_updAr] at h2
    simp only [Life.malloc, upd_upd] at h2
    refine ⟨_, rfl, ?_, rfl, rfl, rfl, rfl, rfl, rfl, rfl⟩
    simp only [given, upd, if_true, Option.map_some] at h2
    exact h2

theorem Core.meshTexture (h : Core s X H rG mh mo ar V) {m : Nat} (hm : 0 < rM s.nG rG mh mo m) (d : Nat)
    (hu : ∀ e, ar m .uv ≠ some (.own e)) : ∃ s', Life.meshTexture s m d = .ok s' ∧
      Core s' X H rG mh mo (updAr (updAr ar m .rgba (some (.own d))) m .uv (some (.own 0))) V ∧
      s'.geoms = s.geoms ∧ s'.frames = s.frames ∧ s'.sgs = s.sgs ∧ s'.nG = s.nG ∧ s'.nM = s.nM ∧
      s'.nS = s.nS ∧ s'.dead = s.dead := by
  obtain ⟨s1, e1, h1, q1, q2, q3, q4, q5, q6, q7⟩ := h.meshSet hm .rgba (.copy d)
  unfold Life.meshTexture
  rw [e1]
  dsimp only [Out.bind]
  obtain ⟨M, hM, hrc, har⟩ := h1.m1 m (by rw [q4]; exact hm)
  rw [hM]
  have ho : ownedList (M.arr .uv) = [] := by
    have k := har .uv
    cases ha : M.arr .uv with
    | owned b =>
      rw [ha] at k
      have c := h1.cnt b
      have c1 := sum_ge (h1.mesh_lt hM).1 (fun m => fM b (s1.meshes m))
      rw [hM] at c1
      have c2 : 0 < fM b (some M) := List.count_pos_iff.2 (ha ▸ arrs_mem M .uv)
      cases hb : s1.blocks b with
      | none =>
        rw [hb] at c
        simp only [al, Life.cnt] at c
        omega
      | some e =>
        simp only [given, hb, Option.map_some, updAr] at k
        rw [if_neg (by simp)] at k
        exact absurd k.symm (hu e)
    | _ => rfl
  have h2 := Core.swap (a := .owned s1.nB) (X := X) (h1.malloc 0) (m := m) (M := M) hM .uv (by simp)
  rw [ho] at h2
  have : given (Life.malloc s1 0).1 (.owned s1.nB) = some (.own 0) := by simp [given, Life.malloc, upd]
  rw [this] at h2
  exact ⟨_, rfl, h2, q1, q2, q3, q4, q5, q6, q7⟩

end Verif.Life
