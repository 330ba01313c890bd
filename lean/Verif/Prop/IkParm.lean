import Verif.Model.IkParm
import Mathlib.Tactic.Linarith

/-!
# C130: arrays given to the parameters of inverse kinematics

The specification knows blocks of the caller and what each array of each parameter object stands for: a private
list of numbers, or a block of the caller that is stolen or borrowed.  It has no heap of the library, no `free` and no
pairs of pointers.
-/

namespace Verif.IkParm

/-! ## Spec -/

/-- a block of the caller. -/
inductive U
  | unused
  | live (l : List ℝ)
  | gone

/-- an array of a parameter object. -/
inductive Held
  | empty
  | priv (l : List ℝ)
  | stolen (k n : Nat)
  | borrowed (k n : Nat)

structure Spec where
  user : Nat → U
  parms : Nat → Option (Sl → Held)

def spec0 : Spec := ⟨fun _ => .unused, fun _ => none⟩

def Spec.setUser (s : Spec) (k : Nat) (u : U) : Spec :=
  { s with user := fun j => if j = k then u else s.user j }

def Spec.setHeld (s : Spec) (p : Nat) (h : Option (Sl → Held)) : Spec :=
  { s with parms := fun j => if j = p then h else s.parms j }

def contents (s : Spec) (k : Nat) : List ℝ :=
  match s.user k with
  | .live l => l
  | _ => []

/-- the numbers an array stands for now. -/
def value (s : Spec) : Held → List ℝ
  | .empty => []
  | .priv l => l
  | .stolen k n => (contents s k).take n
  | .borrowed k n => (contents s k).take n

/-- an array that is not needed any more: what was stolen is gone. -/
def release (s : Spec) : Held → Spec
  | .stolen k _ => s.setUser k .gone
  | _ => s

def Holds (s : Spec) (p : Nat) (x : Sl) (h : Held) : Prop := ∃ a, s.parms p = some a ∧ a x = h

def put (s : Spec) (p : Nat) (x : Sl) (h : Held) : Spec :=
  match s.parms p with
  | none => s
  | some a => (release s (a x)).setHeld p (some fun y => if y = x then h else a y)

def specStep (s : Spec) : Op → Spec
  | .malloc k l => s.setUser k (.live l)
  | .write k l => s.setUser k (.live l)
  | .free k => s.setUser k .gone
  | .create p => s.setHeld p (some fun _ => .empty)
  | .take p x k n .copy => put s p x (.priv ((contents s k).take n))
  | .take p x k n .steal => put s p x (.stolen k n)
  | .take p x k n .borrow => put s p x (.borrowed k n)
  | .centerConfigs p q g => put (put s p .config (.priv q)) p .gain (.priv g)
  | .centerSeed p q => put s p .seed (.priv q)
  | .destroy p =>
    match s.parms p with
    | none => s
    | some a => (release (release (release s (a .gain)) (a .config)) (a .seed)).setHeld p none
  | .solve _ _ => s

/-- the motion in the null space at `q`: towards the reference, each variable with its gain. -/
def specOut (s : Spec) : Op → Option (List ℝ)
  | .solve p q =>
    match s.parms p with
    | none => none
    | some a =>
      match a .config with
      | .empty => none
      | h => some (List.zipWith (fun k d => -k * d) ((value s (a .gain)).take q.length)
          (List.zipWith (fun x y => x - y) q ((value s h).take q.length)))
  | _ => none

/-- an array refers to block `k`. -/
def Refers (h : Held) (k : Nat) : Prop := (∃ n, h = .stolen k n) ∨ ∃ n, h = .borrowed k n

/-- The rules of the three ways to pass an array, and of memory. -/
def Allowed (s : Spec) : Op → Prop
  | .malloc k _ => s.user k = .unused
  | .write k l => ∃ l0, s.user k = .live l0 ∧ l.length = l0.length
  | .free k => (∃ l, s.user k = .live l) ∧ ∀ p x h, Holds s p x h → ¬ Refers h k
  | .create p => s.parms p = none
  | .take p x k n op => (∃ a, s.parms p = some a) ∧ (∃ l, s.user k = .live l ∧ n ≤ l.length) ∧
      match op with
      | .copy => True
      -- the caller gives the block away: nothing else refers to it
      | .steal => ∀ p' x' h, Holds s p' x' h → Refers h k → p' = p ∧ x' = x
      -- the caller keeps the block: nothing else may free it
      | .borrow => ∀ p' x' m, Holds s p' x' (.stolen k m) → p' = p ∧ x' = x
  | .centerConfigs p q g => (∃ a, s.parms p = some a) ∧ q.length = g.length
  | .centerSeed p _ => ∃ a, s.parms p = some a
  | .destroy p => ∃ a, s.parms p = some a
  | .solve p q => ∃ a, s.parms p = some a ∧ ∀ h, a .config = h → h ≠ .empty → q.length ≤ (value s h).length ∧
      (a .gain ≠ .empty → q.length ≤ (value s (a .gain)).length)

/-- what the partial theorems leave out: an array that owns its block is given the same block again; a solver is
run with a reference and without gains. -/
def Avoids (s : Spec) : Op → Prop
  | .take p x k _ _ => ∀ m, ¬ Holds s p x (.stolen k m)
  | .solve p _ => ∀ a, s.parms p = some a → (a .config = .empty ↔ a .gain = .empty) ∨ a .config = .empty
  | _ => True

def Along (P : Spec → Op → Prop) : Spec → List Op → Prop
  | _, [] => True
  | s, o :: os => P s o ∧ Along P (specStep s o) os

def specOuts : Spec → List Op → List (Option (List ℝ))
  | _, [] => []
  | s, o :: os => specOut s o :: specOuts (specStep s o) os

def specEnd (s : Spec) (os : List Op) : Spec := os.foldl specStep s

/-! ## Proof -/

/-- a slot implements an array. -/
def SlotRel (w : World) (s : Spec) (t : Slot) : Held → Prop
  | .empty => t.ref = none ∧ t.data = none
  | .priv l => ∃ i < w.next, t.ref = some (.lib i) ∧ t.data = some (.lib i) ∧ w.heap (.lib i) = some l
  | .stolen k n => t.ref = some (.user k) ∧ t.data = some (.user k) ∧ ∃ l, s.user k = .live l ∧ n ≤ l.length
  | .borrowed k n => t.ref = some (.user k) ∧ t.data = none ∧ ∃ l, s.user k = .live l ∧ n ≤ l.length

structure Rel (w : World) (s : Spec) : Prop where
  user : ∀ k l, s.user k = .live l → w.heap (.user k) = some l
  none : ∀ p, s.parms p = none ↔ w.parms p = none
  slot : ∀ p a b x, s.parms p = some a → w.parms p = some b → SlotRel w s (b x) (a x)
  lib : ∀ p p' b b' x x' i, w.parms p = some b → w.parms p' = some b' → (b x).data = some (.lib i) →
    (b' x').data = some (.lib i) → p = p' ∧ x = x'
  own : ∀ p p' x x' k n h, Holds s p x (.stolen k n) → Holds s p' x' h → Refers h k → p = p' ∧ x = x'

theorem rel_init : Rel init spec0 := by
  constructor <;> simp [init, spec0, Holds]

/-- changing blocks of the caller that nobody refers to, or their contents. -/
theorem SlotRel.mono {w w' : World} {s s' : Spec} {t : Slot} {h : Held} (r : SlotRel w s t h)
    (hn : w.next ≤ w'.next)
    (hl : ∀ i, i < w.next → t.data = some (.lib i) → w'.heap (.lib i) = w.heap (.lib i))
    (hu : ∀ k l, Refers h k → s.user k = .live l → ∃ l', s'.user k = .live l' ∧ l'.length = l.length) :
    SlotRel w' s' t h := by
  cases h with
  | empty => exact r
  | priv l =>
    obtain ⟨i, hi, r1, r2, r3⟩ := r
    exact ⟨i, by omega, r1, r2, by rw [hl i hi r2, r3]⟩
  | stolen k n =>
    obtain ⟨r1, r2, l, r3, r4⟩ := r
    obtain ⟨l', e, e'⟩ := hu k l (Or.inl ⟨n, rfl⟩) r3
    exact ⟨r1, r2, l', e, by omega⟩
  | borrowed k n =>
    obtain ⟨r1, r2, l, r3, r4⟩ := r
    obtain ⟨l', e, e'⟩ := hu k l (Or.inr ⟨n, rfl⟩) r3
    exact ⟨r1, r2, l', e, by omega⟩

/-- the caller changes a block. -/
theorem rel_user {w : World} {s : Spec} (r : Rel w s) (k : Nat) (u : U)
    (v : Option (List ℝ)) (hv : ∀ l, u = .live l → v = some l)
    (hu : ∀ p x h, Holds s p x h → Refers h k → ∃ l l', s.user k = .live l ∧ u = .live l' ∧ l'.length = l.length) :
    Rel (setHeap w (.user k) v) (s.setUser k u) := by
  refine ⟨fun j l hj => ?_, r.none, fun p a b x ha hb => ?_, r.lib, r.own⟩
  · simp only [Spec.setUser] at hj
    simp only [setHeap, Blk.user.injEq]
    by_cases e : j = k
    · rw [if_pos e] at hj ⊢; exact hv l hj
    · rw [if_neg e] at hj ⊢; exact r.user j l hj
  · refine (r.slot p a b x ha hb).mono (le_refl _) (fun i _ _ => by simp [setHeap]) fun j l hr hj => ?_
    by_cases e : j = k
    · subst e
      obtain ⟨l0, l', e1, e2, e3⟩ := hu p x (a x) ⟨a, ha, rfl⟩ hr
      rw [hj] at e1
      cases e1
      exact ⟨l', by simp [Spec.setUser, e2], e3⟩
    · exact ⟨l, by simp [Spec.setUser, e, hj], rfl⟩

/-- an array with nothing in it. -/
def emptied (s : Spec) (p : Nat) (x : Sl) (a : Sl → Held) : Spec :=
  (release s (a x)).setHeld p (some fun y => if y = x then .empty else a y)

/-- the state after the library freed the array `x` of `p` and forgot it. -/
def forget (w : World) (p : Nat) (x : Sl) (b : Sl → Slot) (m : Nat) : World :=
  setParm w p (some fun y => if y = x then ⟨none, none, m⟩ else b y)

theorem rel_free {w : World} {s : Spec} (r : Rel w s) {p : Nat} {a : Sl → Held} {b : Sl → Slot} (x : Sl)
    (ha : s.parms p = some a) (hb : w.parms p = some b) (m : Nat) :
    ∃ w', free w (b x).data = some w' ∧ w'.parms = w.parms ∧ w'.next = w.next ∧
      (∀ k l, (emptied s p x a).user k = .live l ↔ s.user k = .live l ∧ ∀ m, a x ≠ .stolen k m) ∧
      Rel (forget w' p x b m) (emptied s p x a) ∧
      (∀ c, w'.heap c = if (b x).data = some c then none else w.heap c) := by
  have hs := r.slot p a b x ha hb
  have hnone : ∀ q, (emptied s p x a).parms q = none ↔ (forget w p x b m).parms q = none := by
    intro q
    simp only [emptied, Spec.setHeld, forget, setParm]
    by_cases e : q = p
    · simp [e]
    · rw [if_neg e, if_neg e]
      cases a x <;> exact r.none q
  -- where the arrays of the new state come from
  have hsrc : ∀ q h y, Holds (emptied s p x a) q y h → h ≠ .empty → Holds s q y h ∧ ¬ (q = p ∧ y = x) := by
    rintro q h y ⟨c, e1, e2⟩ hne
    have hp : (release s (a x)).parms = s.parms := by cases a x <;> rfl
    simp only [emptied, Spec.setHeld, hp] at e1
    by_cases e : q = p
    · subst e
      rw [if_pos rfl, Option.some.injEq] at e1
      subst e1
      by_cases ey : y = x
      · beta_reduce at e2; rw [if_pos ey] at e2; exact absurd e2.symm hne
      · beta_reduce at e2; rw [if_neg ey] at e2
        exact ⟨⟨a, ha, e2⟩, fun h => ey h.2⟩
    · rw [if_neg e] at e1
      exact ⟨⟨c, e1, e2⟩, fun h => e h.1⟩
  have huser : ∀ k l, (emptied s p x a).user k = .live l ↔ s.user k = .live l ∧ ∀ m, a x ≠ .stolen k m := by
    intro k l
    simp only [emptied, Spec.setHeld]
    cases hax : a x with
    | stolen j m =>
      simp only [release, Spec.setUser]
      by_cases e : k = j
      · subst e
        simp
      · rw [if_neg e]
        simp only [ne_eq, Held.stolen.injEq, not_and]
        exact ⟨fun h => ⟨h, fun m h' => absurd h'.symm e⟩, fun h => h.1⟩
    | _ => simp [release]
  have hrefs : ∀ q h y k l, Holds (emptied s p x a) q y h → Refers h k → s.user k = .live l →
      (emptied s p x a).user k = .live l := by
    intro q h y k l hh hr hk
    obtain ⟨h1, h2⟩ := hsrc q h y hh (by rintro rfl; rcases hr with ⟨n, e⟩ | ⟨n, e⟩ <;> cases e)
    refine (huser k l).2 ⟨hk, fun m hm => h2 ?_⟩
    obtain ⟨e1, e2⟩ := r.own p q x y k m h ⟨a, ha, hm⟩ h1 hr
    exact ⟨e1.symm, e2.symm⟩
  have hown : ∀ q q' y y' k n h, Holds (emptied s p x a) q y (.stolen k n) → Holds (emptied s p x a) q' y' h →
      Refers h k → q = q' ∧ y = y' := by
    intro q q' y y' k n h h1 h2 h3
    exact r.own q q' y y' k n h (hsrc q _ y h1 (by simp)).1
      (hsrc q' h y' h2 (by rintro rfl; rcases h3 with ⟨n, e⟩ | ⟨n, e⟩ <;> cases e)).1 h3
  -- the new world, whatever was freed
  have key : ∀ w' : World, w'.parms = w.parms → w'.next = w.next →
      (∀ c, w'.heap c = if (b x).data = some c then none else w.heap c) →
      Rel (forget w' p x b m) (emptied s p x a) := by
    intro w' e1 e2 e3
    have hsl : ∀ q c y, (forget w' p x b m).parms q = some c →
        (q = p ∧ y = x ∧ c y = ⟨none, none, m⟩) ∨ (¬ (q = p ∧ y = x) ∧ ∃ c', w.parms q = some c' ∧ c y = c' y) := by
      intro q c y hc
      simp only [forget, setParm, e1] at hc
      by_cases e : q = p
      · subst e
        rw [if_pos rfl, Option.some.injEq] at hc
        subst hc
        by_cases ey : y = x
        · exact Or.inl ⟨rfl, ey, if_pos ey⟩
        · exact Or.inr ⟨fun h => ey h.2, b, hb, if_neg ey⟩
      · rw [if_neg e] at hc
        exact Or.inr ⟨fun h => e h.1, c, hc, rfl⟩
    refine ⟨fun k l hk => ?_, ?_, fun q c d y hc hd => ?_, ?_, hown⟩
    · obtain ⟨h1, h2⟩ := (huser k l).1 hk
      show w'.heap _ = _
      rw [e3, if_neg, r.user k l h1]
      intro hd
      have hs := hs
      revert hs
      cases hax : a x with
      | empty => rintro ⟨_, e⟩; rw [hd] at e; cases e
      | priv l => rintro ⟨i, _, _, e, _⟩; rw [hd] at e; cases e
      | stolen j m =>
        rintro ⟨_, e, _⟩
        rw [hd] at e
        cases e
        exact h2 m hax
      | borrowed j m => rintro ⟨_, e, _⟩; rw [hd] at e; cases e
    · intro q
      have := hnone q
      simp only [forget, setParm, e1] at this ⊢
      exact this
    · rcases hsl q d y hd with ⟨eq, ey, e⟩ | ⟨ne, d', hd', e⟩
      · subst eq; subst ey
        have hp : c y = .empty := by
          simp only [emptied, Spec.setHeld, if_pos] at hc
          rw [← Option.some.inj hc]; simp
        rw [hp, e]
        exact ⟨rfl, rfl⟩
      · obtain ⟨c', hc', ec⟩ : ∃ c', s.parms q = some c' ∧ c y = c' y := by
          have hp : (release s (a x)).parms = s.parms := by cases a x <;> rfl
          simp only [emptied, Spec.setHeld, hp] at hc
          by_cases e : q = p
          · subst e
            rw [if_pos rfl, Option.some.injEq] at hc
            subst hc
            refine ⟨a, ha, ?_⟩
            exact if_neg fun h => ne ⟨rfl, h⟩
          · rw [if_neg e] at hc
            exact ⟨c, hc, rfl⟩
        rw [e, ec]
        refine (r.slot q c' d' y hc' hd').mono (by simp [forget, setParm, e2]) (fun i _ hi => ?_) fun k l hr hk =>
          ⟨l, hrefs q (c y) y k l ⟨c, hc, rfl⟩ (by rwa [ec]) hk, rfl⟩
        show w'.heap _ = _
        rw [e3, if_neg]
        intro hx
        obtain ⟨f1, f2⟩ := r.lib p q b d' x y i hb hd' hx hi
        exact ne ⟨f1.symm, f2.symm⟩
    · intro q q' d d' y y' i hd hd' h1 h2
      rcases hsl q d y hd with ⟨_, _, e⟩ | ⟨_, c, hc, e⟩
      · rw [e] at h1; cases h1
      · rcases hsl q' d' y' hd' with ⟨_, _, e'⟩ | ⟨_, c', hc', e'⟩
        · rw [e'] at h2; cases h2
        · rw [e] at h1; rw [e'] at h2
          exact r.lib q q' c c' y y' i hc hc' h1 h2
  cases hd : (b x).data with
  | none =>
    refine ⟨w, rfl, rfl, rfl, huser, key w rfl rfl (fun c => by simp [hd]), by simp⟩
  | some c =>
    have hc : ∃ l, w.heap c = some l := by
      revert hs
      cases hax : a x with
      | empty => rintro ⟨_, e⟩; rw [hd] at e; cases e
      | priv l => rintro ⟨i, _, _, e, e'⟩; rw [hd] at e; cases e; exact ⟨l, e'⟩
      | stolen j m => rintro ⟨_, e, l, e', _⟩; rw [hd] at e; cases e; exact ⟨l, r.user j l e'⟩
      | borrowed j m => rintro ⟨_, e, _⟩; rw [hd] at e; cases e
    obtain ⟨l, hl⟩ := hc
    have hh : ∀ c', (setHeap w c none).heap c' = if some c = some c' then none else w.heap c' := by
      intro c'
      simp only [setHeap, Option.some.injEq, eq_comm]
    refine ⟨setHeap w c none, by simp [free, hl], rfl, rfl, huser, key _ rfl rfl (by rw [hd]; exact hh), ?_⟩
    exact hh

theorem old_lib {w : World} {s : Spec} (r : Rel w s) {q : Nat} {d : Sl → Slot} {y : Sl} {i : Nat}
    (hd : w.parms q = some d) (hi : (d y).data = some (.lib i)) : i < w.next ∧ ∃ l, w.heap (.lib i) = some l := by
  cases hc : s.parms q with
  | none => rw [(r.none q).1 hc] at hd; cases hd
  | some c =>
    have := r.slot q c d y hc hd
    revert this
    cases c y with
    | empty => rintro ⟨_, e⟩; rw [hi] at e; cases e
    | priv l => rintro ⟨j, hj, _, e, e'⟩; rw [hi] at e; cases e; exact ⟨hj, l, e'⟩
    | stolen j m => rintro ⟨_, e, _⟩; rw [hi] at e; cases e
    | borrowed j m => rintro ⟨_, e, _⟩; rw [hi] at e; cases e

/-- filling an array. -/
theorem rel_fill {w : World} {s : Spec} (r : Rel w s) {p : Nat} {a : Sl → Held} {b : Sl → Slot} (x : Sl)
    (ha : s.parms p = some a) (hb : w.parms p = some b) (w' : World) (t : Slot) (h : Held)
    (hp : w'.parms = w.parms) (hn : w.next ≤ w'.next)
    (hh : ∀ c, (∀ i, c = .lib i → i < w.next) → w'.heap c = w.heap c)
    (ht : SlotRel w' s t h)
    (hfresh : ∀ i, t.data = some (.lib i) → ∀ q d y, w.parms q = some d → (d y).data ≠ some (.lib i))
    (hs : ∀ k n, h = .stolen k n → ∀ p' x' h', Holds s p' x' h' → ¬ Refers h' k)
    (hr : ∀ k, Refers h k → ∀ p' x' m, ¬ Holds s p' x' (.stolen k m)) :
    Rel (setParm w' p (some fun y => if y = x then t else b y))
      (s.setHeld p (some fun y => if y = x then h else a y)) := by
  have hold : ∀ q y k, Holds (s.setHeld p (some fun y => if y = x then h else a y)) q y k →
      (q = p ∧ y = x ∧ k = h) ∨ (¬ (q = p ∧ y = x) ∧ Holds s q y k) := by
    rintro q y k ⟨c, e1, e2⟩
    simp only [Spec.setHeld] at e1
    by_cases e : q = p
    · subst e
      rw [if_pos rfl, Option.some.injEq] at e1
      subst e1
      by_cases ey : y = x
      · beta_reduce at e2; rw [if_pos ey] at e2; exact Or.inl ⟨rfl, ey, e2.symm⟩
      · beta_reduce at e2; rw [if_neg ey] at e2; exact Or.inr ⟨fun h => ey h.2, a, ha, e2⟩
    · rw [if_neg e] at e1; exact Or.inr ⟨fun h => e h.1, c, e1, e2⟩
  have slot : ∀ q d y, (setParm w' p (some fun y => if y = x then t else b y)).parms q = some d →
      (q = p ∧ y = x ∧ d y = t) ∨ (¬ (q = p ∧ y = x) ∧ ∃ d', w.parms q = some d' ∧ d y = d' y) := by
    intro q d y hd
    simp only [setParm, hp] at hd
    by_cases e : q = p
    · subst e
      rw [if_pos rfl, Option.some.injEq] at hd
      subst hd
      by_cases ey : y = x
      · exact Or.inl ⟨rfl, ey, if_pos ey⟩
      · exact Or.inr ⟨fun h => ey h.2, b, hb, if_neg ey⟩
    · rw [if_neg e] at hd; exact Or.inr ⟨fun h => e h.1, d, hd, rfl⟩
  refine ⟨fun k l hk => ?_, fun q => ?_, fun q c d y hc hd => ?_, ?_, ?_⟩
  · show w'.heap _ = _
    rw [hh _ (by simp)]
    exact r.user k l hk
  · simp only [Spec.setHeld, setParm, hp]
    by_cases e : q = p
    · simp [e]
    · rw [if_neg e, if_neg e]; exact r.none q
  · rcases slot q d y hd with ⟨e1, e2, e3⟩ | ⟨ne, d', hd', e3⟩
    · rcases hold q y (c y) ⟨c, hc, rfl⟩ with ⟨_, _, e4⟩ | ⟨ne, _⟩
      · rw [e3, e4]
        exact ht.mono (le_refl _) (fun _ _ _ => rfl) fun k l _ hk => ⟨l, hk, rfl⟩
      · exact absurd ⟨e1, e2⟩ ne
    · rcases hold q y (c y) ⟨c, hc, rfl⟩ with ⟨e1, e2, _⟩ | ⟨_, c', hc', e4⟩
      · exact absurd ⟨e1, e2⟩ ne
      · rw [e3, ← e4]
        exact (r.slot q c' d' y hc' hd').mono hn (fun i hi _ => hh _ (by rintro j ⟨⟩; exact hi))
          fun k l _ hk => ⟨l, hk, rfl⟩
  · intro q q' d d' y y' i hd hd' h1 h2
    rcases slot q d y hd with ⟨e1, e2, e3⟩ | ⟨ne, c, hc, e3⟩ <;>
      rcases slot q' d' y' hd' with ⟨f1, f2, f3⟩ | ⟨nf, c', hc', f3⟩
    · exact ⟨e1.trans f1.symm, e2.trans f2.symm⟩
    · exact absurd (by rw [← f3]; exact h2) (hfresh i (by rw [← e3]; exact h1) q' c' y' hc')
    · exact absurd (by rw [← e3]; exact h1) (hfresh i (by rw [← f3]; exact h2) q c y hc)
    · exact r.lib q q' c c' y y' i hc hc' (by rw [← e3]; exact h1) (by rw [← f3]; exact h2)
  · intro q q' y y' k n h' h1 h2 h3
    rcases hold q y _ h1 with ⟨e1, e2, e3⟩ | ⟨ne, g1⟩ <;> rcases hold q' y' _ h2 with ⟨f1, f2, f3⟩ | ⟨nf, g2⟩
    · exact ⟨e1.trans f1.symm, e2.trans f2.symm⟩
    · exact absurd h3 (hs k n e3.symm _ _ _ g2)
    · subst f3
      exact absurd g1 (hr k h3 _ _ _)
    · exact r.own q q' y y' k n h' g1 g2 h3

/-! ## Leaks -/

/-- somebody will free the block. -/
def Covered (w : World) (s : Spec) : Blk → Prop
  | .user k => ∃ l, s.user k = .live l
  | .lib i => ∃ p b x, w.parms p = some b ∧ (b x).data = some (.lib i)

/-- only the blocks `D` are lost. -/
def Kept (w : World) (s : Spec) (D : Blk → Prop) : Prop := ∀ c l, w.heap c = some l → D c ∨ Covered w s c

theorem put_eq {s : Spec} {p : Nat} {a : Sl → Held} (ha : s.parms p = some a) (x : Sl) (h : Held) :
    put s p x h = (emptied s p x a).setHeld p (some fun y => if y = x then h else a y) := by
  simp only [put, ha, emptied, Spec.setHeld]
  congr 1
  funext q
  by_cases e : q = p <;> simp [e]

/-- freeing the former array and filling in a new one. -/
theorem rel_take {w : World} {s : Spec} (r : Rel w s) {p : Nat} {a : Sl → Held} (x : Sl)
    (ha : s.parms p = some a) (q : Ptr) (n : Nat) (op : Refop) (h : Held) (new : Nat → Prop)
    (hd : ∀ w', w'.parms = w.parms → w'.next = w.next →
      (∀ b, w.parms p = some b → ∀ c, w'.heap c = if (b x).data = some c then none else w.heap c) →
      ∃ t w2, dupop w' op q n = some (t, w2) ∧ w2.parms = w'.parms ∧ w'.next ≤ w2.next ∧
        (∀ c, w2.heap c = w'.heap c ∨ t.data = some c ∧ ∃ i, c = .lib i ∧ w'.next ≤ i) ∧
        SlotRel w2 (emptied s p x a) t h ∧
        (∀ i, t.data = some (.lib i) → (new i ∨ w.next ≤ i)))
    (hnew : ∀ i, new i → ∀ q d y, w.parms q = some d → (d y).data ≠ some (.lib i))
    (hs : ∀ k n, h = .stolen k n → ∀ p' x' h', Holds s p' x' h' → Refers h' k → p' = p ∧ x' = x)
    (hr : ∀ k, Refers h k → ∀ p' x' m, Holds s p' x' (.stolen k m) → p' = p ∧ x' = x) :
    ∃ w2, take w p x q n op = some w2 ∧ Rel w2 (put s p x h) ∧
      (∀ y b2, w2.parms p = some b2 → y ≠ x → ∃ b, w.parms p = some b ∧ b2 y = b y) ∧
      (∀ i, i < w.next → (∀ d, w.parms p = some d → (d x).data ≠ some (.lib i)) → w2.heap (.lib i) = w.heap (.lib i)) ∧
      w.next ≤ w2.next ∧
      (∀ b2, w2.parms p = some b2 → (∀ i, (b2 x).data = some (.lib i) → new i ∨ w.next ≤ i)) ∧
      (∀ q', q' ≠ p → w2.parms q' = w.parms q') ∧
      ∀ D, Kept w s D → Kept w2 (put s p x h) fun c => D c ∧ ∀ b2, w2.parms p = some b2 → (b2 x).data ≠ some c := by
  obtain ⟨b, hb⟩ : ∃ b, w.parms p = some b := by
    cases e : w.parms p with
    | none => rw [(r.none p).2 e] at ha; cases ha
    | some b => exact ⟨b, rfl⟩
  obtain ⟨w', f1, f2, f3, f4, f5, f6⟩ := rel_free r x ha hb 0
  obtain ⟨t, w2, g1, g2, g3, g4, g5, g6⟩ := hd w' f2 f3 (fun b' hb' => by rw [hb] at hb'; cases hb'; exact f6)
  have hold : ∀ q y h', Holds (emptied s p x a) q y h' → h' ≠ .empty → Holds s q y h' ∧ ¬ (q = p ∧ y = x) := by
    rintro q y h' ⟨c, e1, e2⟩ hne
    have hp : (release s (a x)).parms = s.parms := by cases a x <;> rfl
    simp only [emptied, Spec.setHeld, hp] at e1
    by_cases e : q = p
    · subst e
      rw [if_pos rfl, Option.some.injEq] at e1
      subst e1
      beta_reduce at e2
      by_cases ey : y = x
      · rw [if_pos ey] at e2; exact absurd e2.symm hne
      · rw [if_neg ey] at e2
        exact ⟨⟨a, ha, e2⟩, fun h => ey h.2⟩
    · rw [if_neg e] at e1
      exact ⟨⟨c, e1, e2⟩, fun h => e h.1⟩
  have slotsOf : ∀ q d y i, (forget w' p x b 0).parms q = some d → (d y).data = some (.lib i) →
      ¬ (q = p ∧ y = x) ∧ ∃ d', w.parms q = some d' ∧ (d' y).data = some (.lib i) := by
    intro q d y i hd hi
    simp only [forget, setParm, f2] at hd
    by_cases e : q = p
    · subst e
      rw [if_pos rfl, Option.some.injEq] at hd
      subst hd
      beta_reduce at hi
      by_cases ey : y = x
      · rw [if_pos ey] at hi; cases hi
      · rw [if_neg ey] at hi; exact ⟨fun h => ey h.2, b, hb, hi⟩
    · rw [if_neg e] at hd; exact ⟨fun h => e h.1, d, hd, hi⟩
  have ha' : (emptied s p x a).parms p = some fun y => if y = x then .empty else a y := by
    simp [emptied, Spec.setHeld]
  have hb' : (forget w' p x b 0).parms p = some fun y => if y = x then ⟨none, none, 0⟩ else b y := by
    simp [forget, setParm]
  have hfr : ∀ i, t.data = some (.lib i) → ∀ q d y, w.parms q = some d → (d y).data ≠ some (.lib i) := by
    intro i hi q d y hd hc
    rcases g6 i hi with e | e
    · exact hnew i e q d y hd hc
    · have := (old_lib r hd hc).1; omega
  have key := rel_fill f5 x ha' hb' { w2 with parms := (forget w' p x b 0).parms } t h rfl
    (by simpa [forget, setParm] using g3)
    (fun c hc => by
      rcases g4 c with e | ⟨_, i, e, e'⟩
      · exact e
      · have := hc i e; simp only [forget, setParm] at this; omega)
    (by
      refine g5.mono (le_refl _) (fun _ _ _ => rfl) fun k l _ hk => ⟨l, hk, rfl⟩)
    (fun i hi q d y hd hc => by
      obtain ⟨_, d', hd', hc'⟩ := slotsOf q d y i hd hc
      exact hfr i hi q d' y hd' hc')
    (fun k m e p' x' h' hh hr' => by
      obtain ⟨h1, h2⟩ := hold p' x' h' hh (by rintro rfl; rcases hr' with ⟨n, e⟩ | ⟨n, e⟩ <;> cases e)
      exact h2 (hs k m e p' x' h' h1 hr'))
    (fun k hk p' x' m hh => by
      obtain ⟨h1, h2⟩ := hold p' x' _ hh (by simp)
      exact h2 (hr k hk p' x' m h1))
  have hw : setParm { w2 with parms := (forget w' p x b 0).parms } p
      (some fun y => if y = x then t else (fun y => if y = x then (⟨none, none, 0⟩ : Slot) else b y) y) =
      setParm w2 p (some fun y => if y = x then t else b y) := by
    simp only [setParm, forget, World.mk.injEq, true_and]
    funext q
    by_cases e : q = p
    · subst e
      simp only [if_true, Option.some.injEq]
      funext y
      by_cases ey : y = x <;> simp [ey]
    · simp [e, g2]
  have hs' : ((emptied s p x a).setHeld p (some fun y => if y = x then h else
      (fun y => if y = x then .empty else a y) y)) = put s p x h := by
    rw [put_eq ha]
    simp only [Spec.setHeld, Spec.mk.injEq, true_and]
    funext q
    by_cases e : q = p
    · subst e
      simp only [if_true, Option.some.injEq]
      funext y
      by_cases ey : y = x <;> simp [ey]
    · simp [e]
  rw [hw, hs'] at key
  refine ⟨_, ?_, key, ?_, ?_, by simp only [setParm]; omega, ?_, ?_, ?_⟩
  · simp only [take, hb, Option.bind_some, f1, g1, Option.map_some]
  · intro y b2 h2 hy
    simp only [setParm, if_true, Option.some.injEq] at h2
    exact ⟨b, hb, by rw [← h2]; exact if_neg hy⟩
  · intro i hi hne
    show w2.heap _ = _
    rcases g4 (.lib i) with e | ⟨_, j, e, e'⟩
    · rw [e, f6, if_neg (hne b hb)]
    · cases e; omega
  · intro b2 h2 i hi
    simp only [setParm, if_true, Option.some.injEq] at h2
    rw [← h2] at hi
    simp only [if_true] at hi
    exact g6 i hi
  · intro q' hq
    simp [setParm, hq, g2, f2]
  · intro D hD c l hc
    have hpu : (put s p x h).user = (emptied s p x a).user := by rw [put_eq ha]; rfl
    change w2.heap c = some l at hc
    have hcov : t.data = some c → Covered (setParm w2 p (some fun y => if y = x then t else b y)) (put s p x h) c := by
      intro ht
      cases c with
      | lib i => exact ⟨p, _, x, by simp only [setParm, if_true]; rfl, by simpa using ht⟩
      | user k =>
        revert g5
        cases h with
        | empty => rintro ⟨_, e⟩; rw [ht] at e; cases e
        | priv l => rintro ⟨i, _, _, e, _⟩; rw [ht] at e; cases e
        | stolen j m =>
          rintro ⟨_, e, l', e', _⟩
          rw [ht] at e
          cases e
          exact ⟨l', by rw [hpu]; exact e'⟩
        | borrowed j m => rintro ⟨_, e, _⟩; rw [ht] at e; cases e
    by_cases ht : t.data = some c
    · exact Or.inr (hcov ht)
    have hc' : w'.heap c = some l := by
      rcases g4 c with e | ⟨e, _⟩
      · rw [← e, hc]
      · exact absurd e ht
    rw [f6] at hc'
    by_cases hx : (b x).data = some c
    · rw [if_pos hx] at hc'; cases hc'
    rw [if_neg hx] at hc'
    rcases hD c l hc' with e | e
    · refine Or.inl ⟨e, fun b2 h2 => ?_⟩
      simp only [setParm, if_true, Option.some.injEq] at h2
      rw [← h2]
      simpa using ht
    · refine Or.inr ?_
      cases c with
      | user k =>
        obtain ⟨l', e⟩ := e
        refine ⟨l', ?_⟩
        rw [hpu]
        refine (f4 k l').2 ⟨e, fun m hm => hx ?_⟩
        have := r.slot p a b x ha hb
        rw [hm] at this
        exact this.2.1
      | lib i =>
        obtain ⟨q', d, y, e1, e2⟩ := e
        have hne : ¬ (q' = p ∧ y = x) := by
          rintro ⟨rfl, rfl⟩
          rw [hb] at e1
          cases e1
          exact hx e2
        by_cases eq : q' = p
        · subst eq
          rw [hb] at e1
          cases e1
          refine ⟨q', _, y, by simp only [setParm, if_true]; rfl, ?_⟩
          rw [if_neg fun h => hne ⟨rfl, h⟩]
          exact e2
        · exact ⟨q', d, y, by simp only [setParm, if_neg eq, g2, f2]; exact e1, e2⟩

/-! ## Steps -/

/-- no array was taken as seed. -/
def SeedFree (w : World) : Prop := ∀ p b, w.parms p = some b → (b .seed).data = none

def NoSeed : Op → Prop
  | .take _ x _ _ op => x = .seed → op = .borrow
  | .centerSeed _ _ => False
  | _ => True

theorem data_user {w : World} {s : Spec} (r : Rel w s) {p : Nat} {a : Sl → Held} {b : Sl → Slot} (x : Sl)
    (ha : s.parms p = some a) (hb : w.parms p = some b) {k : Nat} (h : (b x).data = some (.user k)) :
    ∃ m, a x = .stolen k m := by
  have := r.slot p a b x ha hb
  revert this
  cases a x with
  | empty => rintro ⟨_, e⟩; rw [h] at e; cases e
  | priv l => rintro ⟨i, _, _, e, _⟩; rw [h] at e; cases e
  | stolen j m => rintro ⟨_, e, _⟩; rw [h] at e; cases e; exact ⟨m, rfl⟩
  | borrowed j m => rintro ⟨_, e, _⟩; rw [h] at e; cases e

theorem emptied_live {s : Spec} {p : Nat} {a : Sl → Held} {x : Sl} {k : Nat} {l : List ℝ}
    (hk : s.user k = .live l) (hn : ∀ m, a x ≠ .stolen k m) : (emptied s p x a).user k = .live l := by
  simp only [emptied, Spec.setHeld]
  cases hax : a x with
  | stolen j m =>
    simp only [release, Spec.setUser]
    rw [if_neg, hk]
    rintro rfl
    exact hn m hax
  | _ => simpa [release] using hk

/-- the array of a slot that is filled by `take`. -/
def taken (s : Spec) (k n : Nat) : Refop → Held
  | .copy => .priv ((contents s k).take n)
  | .steal => .stolen k n
  | .borrow => .borrowed k n

theorem specStep_take (s : Spec) (p : Nat) (x : Sl) (k n : Nat) (op : Refop) :
    specStep s (.take p x k n op) = put s p x (taken s k n op) := by cases op <;> rfl

theorem step_take {w : World} {s : Spec} (r : Rel w s) {p : Nat} {x : Sl} {k n : Nat} {op : Refop}
    (hA : Allowed s (.take p x k n op)) (hB : Avoids s (.take p x k n op)) :
    ∃ w2, take w p x (some (.user k)) n op = some w2 ∧ Rel w2 (put s p x (taken s k n op)) ∧
      ((x = .seed → op = .borrow) → SeedFree w → Kept w s (fun _ => False) →
        SeedFree w2 ∧ Kept w2 (put s p x (taken s k n op)) fun _ => False) := by
  obtain ⟨⟨a, ha⟩, ⟨l, hl, hn⟩, hop⟩ := hA
  have hns : ∀ m, a x ≠ .stolen k m := fun m hm => hB m ⟨a, ha, hm⟩
  have hct : contents s k = l := by simp [contents, hl]
  obtain ⟨w2, e1, e2, e3, -, -, -, e7, e8⟩ := rel_take r x ha (some (.user k)) n op (taken s k n op) (fun _ => False)
    (fun w' g1 g2 g3 => by
      have hk : w'.heap (.user k) = some l := by
        cases hb : w.parms p with
        | none => rw [(r.none p).2 hb] at ha; cases ha
        | some b =>
          rw [g3 b hb, if_neg, r.user k l hl]
          intro e
          obtain ⟨m, hm⟩ := data_user r x ha hb e
          exact hns m hm
      have hk' := emptied_live (p := p) hl hns
      cases op with
      | copy =>
        refine ⟨⟨some (.lib w'.next), some (.lib w'.next), n⟩, (libAlloc w' (l.take n)).2,
          by simp only [dupop, rd, hk, Option.bind_some, if_pos hn, Option.map_some]; rfl, rfl, ?_, ?_, ?_, ?_⟩
        · simp [libAlloc]
        · intro c
          simp only [libAlloc, setHeap]
          by_cases e : c = .lib w'.next
          · exact Or.inr ⟨by rw [e], w'.next, e, le_refl _⟩
          · exact Or.inl (by rw [if_neg e])
        · exact ⟨w'.next, by simp [libAlloc], rfl, rfl, by simp [libAlloc, setHeap, hct]⟩
        · intro i hi
          simp only [Option.some.injEq, Blk.lib.injEq] at hi
          exact Or.inr (by omega)
      | steal => exact ⟨_, _, rfl, rfl, le_refl _, fun c => Or.inl rfl, ⟨rfl, rfl, l, hk', hn⟩, fun i hi => by cases hi⟩
      | borrow => exact ⟨_, _, rfl, rfl, le_refl _, fun c => Or.inl rfl, ⟨rfl, rfl, l, hk', hn⟩, fun i hi => by cases hi⟩)
    (fun i hi => hi.elim)
    (by
      intro k' n' e
      cases op with
      | steal => cases e; exact hop
      | _ => cases e)
    (by
      intro k' hr p' x' m hh
      cases op with
      | copy => rcases hr with ⟨_, e⟩ | ⟨_, e⟩ <;> cases e
      | steal =>
        rcases hr with ⟨_, e⟩ | ⟨_, e⟩ <;> cases e
        exact hop p' x' _ hh (Or.inl ⟨m, rfl⟩)
      | borrow =>
        rcases hr with ⟨_, e⟩ | ⟨_, e⟩ <;> cases e
        exact hop p' x' m hh)
  refine ⟨w2, e1, e2, fun hx hsf hkp => ⟨fun q b2 hb2 => ?_, fun c l hc => ?_⟩⟩
  · by_cases eq : q = p
    · subst eq
      by_cases hxs : x = .seed
      · have := hx hxs
        subst this
        obtain ⟨b, hb⟩ : ∃ b, s.parms q = some b := ⟨a, ha⟩
        have hput : ∃ a2, (put s q x (taken s k n .borrow)).parms q = some a2 ∧ a2 x = .borrowed k n := by
          rw [put_eq ha]
          exact ⟨fun y => if y = x then .borrowed k n else a y, by simp [Spec.setHeld, taken], if_pos rfl⟩
        obtain ⟨a2, h2, h2'⟩ := hput
        have := e2.slot q a2 b2 x h2 hb2
        rw [h2'] at this
        rw [← hxs]
        exact this.2.1
      · obtain ⟨b, hb, e⟩ := e3 .seed b2 hb2 (fun h => hxs h.symm)
        rw [e]
        exact hsf q b hb
    · rw [e7 q eq] at hb2
      exact hsf q b2 hb2
  · rcases e8 _ hkp c l hc with h | h
    · exact h.1.elim
    · exact Or.inr h

theorem rel_libAlloc {w : World} {s : Spec} (r : Rel w s) (l : List ℝ) :
    Rel (libAlloc w l).2 s ∧ (∀ D, Kept w s D → Kept (libAlloc w l).2 s fun c => D c ∨ c = .lib w.next) := by
  refine ⟨⟨fun k l' h => ?_, r.none, fun p a b x ha hb => ?_, r.lib, r.own⟩, fun D hD c l' hc => ?_⟩
  · simp [libAlloc, setHeap, r.user k l' h]
  · refine (r.slot p a b x ha hb).mono (by simp [libAlloc]) (fun i hi _ => ?_) fun k l' _ hk => ⟨l', hk, rfl⟩
    simp only [libAlloc, setHeap]
    rw [if_neg]
    intro e
    cases e
    omega
  · simp only [libAlloc, setHeap] at hc
    by_cases e : c = .lib w.next
    · exact Or.inl (Or.inr e)
    · rw [if_neg e] at hc
      rcases hD c l' hc with h | h
      · exact Or.inl (Or.inl h)
      · refine Or.inr ?_
        cases c <;> exact h

/-- the library takes a block of its own. -/
theorem step_center {w : World} {s : Spec} (r : Rel w s) {p : Nat} {a : Sl → Held} (ha : s.parms p = some a) (x : Sl)
    (i : Nat) (l : List ℝ) (hi : i < w.next) (hl : w.heap (.lib i) = some l)
    (hfree : ∀ q d y, w.parms q = some d → (d y).data ≠ some (.lib i)) (n : Nat) :
    ∃ w2, take w p x (some (.lib i)) n .steal = some w2 ∧ Rel w2 (put s p x (.priv l)) ∧
      (∀ y b2, w2.parms p = some b2 → y ≠ x → ∃ b, w.parms p = some b ∧ b2 y = b y) ∧
      (∀ j, j < w.next → (∀ d, w.parms p = some d → (d x).data ≠ some (.lib j)) → w2.heap (.lib j) = w.heap (.lib j)) ∧
      w.next ≤ w2.next ∧ (∀ b2, w2.parms p = some b2 → (b2 x).data = some (.lib i)) ∧
      (∀ q', q' ≠ p → w2.parms q' = w.parms q') ∧
      ∀ D, Kept w s D → Kept w2 (put s p x (.priv l)) fun c => D c ∧ c ≠ .lib i := by
  obtain ⟨w2, e1, e2, e3, e4, e5, e6, e7, e8⟩ := rel_take r x ha (some (.lib i)) n .steal (.priv l) (fun j => j = i)
    (fun w' g1 g2 g3 => by
      have hk : w'.heap (.lib i) = some l := by
        cases hb : w.parms p with
        | none => rw [(r.none p).2 hb] at ha; cases ha
        | some b => rw [g3 b hb, if_neg (hfree p b x hb), hl]
      exact ⟨_, _, rfl, rfl, le_refl _, fun c => Or.inl rfl, ⟨i, by omega, rfl, rfl, hk⟩,
        fun j hj => Or.inl (by cases hj; rfl)⟩)
    (by rintro j rfl; exact hfree)
    (by intro k n e; cases e)
    (by rintro k (⟨_, e⟩ | ⟨_, e⟩) <;> cases e)
  have hdat : ∀ b2, w2.parms p = some b2 → (b2 x).data = some (.lib i) := by
    intro b2 hb2
    simp only [take] at e1
    cases hb : w.parms p with
    | none => rw [(r.none p).2 hb] at ha; cases ha
    | some b =>
      rw [hb] at e1
      simp only [Option.bind_some] at e1
      cases hf : free w (b x).data with
      | none => rw [hf] at e1; cases e1
      | some w' =>
        rw [hf] at e1
        simp only [Option.bind_some, dupop, Option.map_some, Option.some.injEq] at e1
        rw [← e1] at hb2
        simp only [setParm, if_true, Option.some.injEq] at hb2
        rw [← hb2]
        simp
  refine ⟨w2, e1, e2, e3, e4, e5, hdat, e7, fun D hD c l' hc => ?_⟩
  rcases e8 D hD c l' hc with h | h
  · obtain ⟨b2, hb2⟩ : ∃ b2, w2.parms p = some b2 := by
      cases e : w2.parms p with
      | none =>
        have := (e2.none p).2 e
        rw [put_eq ha] at this
        simp [Spec.setHeld] at this
      | some b2 => exact ⟨b2, rfl⟩
    refine Or.inl ⟨h.1, ?_⟩
    rintro rfl
    exact h.2 b2 hb2 (hdat b2 hb2)
  · exact Or.inr h

theorem step_centerConfigs {w : World} {s : Spec} (r : Rel w s) {p : Nat} {a : Sl → Held}
    (ha : s.parms p = some a) (q g : List ℝ) :
    ∃ w2, centerConfigs w p q g = some w2 ∧ Rel w2 (put (put s p .config (.priv q)) p .gain (.priv g)) ∧
      (SeedFree w → Kept w s (fun _ => False) →
        SeedFree w2 ∧ Kept w2 (put (put s p .config (.priv q)) p .gain (.priv g)) fun _ => False) := by
  obtain ⟨r1, k1⟩ := rel_libAlloc r q
  obtain ⟨r2, k2⟩ := rel_libAlloc r1 g
  have hfree1 : ∀ q' d y, w.parms q' = some d → (d y).data ≠ some (.lib w.next) := by
    intro q' d y hd hc
    have := (old_lib r hd hc).1
    omega
  have hfree2 : ∀ q' d y, w.parms q' = some d → (d y).data ≠ some (.lib (w.next + 1)) := by
    intro q' d y hd hc
    have := (old_lib r hd hc).1
    omega
  obtain ⟨w3, e1, e2, e3, e4, e5, e6, e7, e8⟩ := step_center r2 ha .config w.next q (by simp only [libAlloc, setHeap]; omega)
    (by simp [libAlloc, setHeap]) hfree1 q.length
  have ha3 : (put s p .config (.priv q)).parms p = some fun y => if y = .config then .priv q else a y := by
    rw [put_eq ha]; simp [Spec.setHeld]
  have hfree3 : ∀ q' d y, w3.parms q' = some d → (d y).data ≠ some (.lib (w.next + 1)) := by
    intro q' d y hd hc
    by_cases eq : q' = p
    · subst eq
      by_cases ey : y = .config
      · subst ey
        have := e6 d hd
        rw [this] at hc
        simp at hc
      · obtain ⟨b, hb, e⟩ := e3 y d hd ey
        rw [e] at hc
        exact hfree2 q' b y hb hc
    · rw [e7 q' eq] at hd
      exact hfree2 q' d y hd hc
  obtain ⟨w4, f1, f2, f3, f4, f5, f6, f7, f8⟩ := step_center e2 ha3 .gain (w.next + 1) g
    (by have := e5; simp [libAlloc] at this; omega)
    (by
      rw [e4 (w.next + 1) (by simp [libAlloc]) (fun d hd => hfree2 p d .config hd)]
      simp [libAlloc, setHeap]) hfree3 g.length
  refine ⟨w4, ?_, f2, fun hsf hkp => ⟨fun q' b hb => ?_, fun c l hc => ?_⟩⟩
  · simp only [centerConfigs]
    have : ((libAlloc w q).1 : Blk) = .lib w.next := rfl
    have h' : ((libAlloc (libAlloc w q).2 g).1 : Blk) = .lib (w.next + 1) := rfl
    rw [this, h', e1, Option.bind_some, f1]
  · by_cases eq : q' = p
    · subst eq
      obtain ⟨b3, hb3, e⟩ := f3 .seed b hb (by simp)
      obtain ⟨b2, hb2, e'⟩ := e3 .seed b3 hb3 (by simp)
      rw [e, e']
      exact hsf q' b2 hb2
    · rw [f7 q' eq, e7 q' eq] at hb
      exact hsf q' b hb
  · have hw : (libAlloc w q).2.next = w.next + 1 := rfl
    rcases f8 _ (e8 _ (k2 _ (k1 _ hkp))) c l hc with h | h
    · rw [hw] at h
      rcases h with ⟨⟨(h | h) | h, h2⟩, h3⟩
      · exact h.elim
      · exact absurd h h2
      · exact absurd h h3
    · exact Or.inr h

theorem step_centerSeed {w : World} {s : Spec} (r : Rel w s) {p : Nat} {a : Sl → Held}
    (ha : s.parms p = some a) (q : List ℝ) :
    ∃ w2, centerSeed w p q = some w2 ∧ Rel w2 (put s p .seed (.priv q)) := by
  obtain ⟨r1, -⟩ := rel_libAlloc r q
  obtain ⟨w3, e1, e2, -⟩ := step_center r1 ha .seed w.next q (by simp [libAlloc])
    (by simp [libAlloc, setHeap]) (fun q' d y hd hc => by have := (old_lib r hd hc).1; omega) q.length
  exact ⟨w3, e1, e2⟩

theorem release_parms (s : Spec) (h : Held) : (release s h).parms = s.parms := by cases h <;> rfl

theorem rel_drop {w : World} {s : Spec} (r : Rel w s) {p : Nat} {a : Sl → Held} (ha : s.parms p = some a)
    (h1 : a .gain = .empty) (h2 : a .config = .empty) :
    Rel (setParm w p none) ((release s (a .seed)).setHeld p none) ∧
      (SeedFree w → Kept w s (fun _ => False) →
        Kept (setParm w p none) ((release s (a .seed)).setHeld p none) fun _ => False) := by
  have hold : ∀ q y h, Holds ((release s (a .seed)).setHeld p none) q y h → q ≠ p ∧ Holds s q y h := by
    rintro q y h ⟨c, e1, e2⟩
    simp only [Spec.setHeld, release_parms] at e1
    by_cases e : q = p
    · rw [if_pos e] at e1; cases e1
    · rw [if_neg e] at e1; exact ⟨e, c, e1, e2⟩
  have hsl : ∀ q d, (setParm w p none).parms q = some d → q ≠ p ∧ w.parms q = some d := by
    intro q d hd
    simp only [setParm] at hd
    by_cases e : q = p
    · rw [if_pos e] at hd; cases hd
    · rw [if_neg e] at hd; exact ⟨e, hd⟩
  have huser : ∀ k l, (release s (a .seed)).user k = .live l ↔ s.user k = .live l ∧ ∀ m, a .seed ≠ .stolen k m := by
    intro k l
    cases hax : a .seed with
    | stolen j m =>
      simp only [release, Spec.setUser]
      by_cases e : k = j
      · subst e; simp
      · rw [if_neg e]
        simp only [ne_eq, Held.stolen.injEq, not_and]
        exact ⟨fun h => ⟨h, fun m h' => absurd h'.symm e⟩, fun h => h.1⟩
    | _ => simp [release]
  refine ⟨⟨fun k l hk => r.user k l ((huser k l).1 hk).1, fun q => ?_, fun q c d y hc hd => ?_, ?_, ?_⟩, fun hsf hkp c l hc => ?_⟩
  · simp only [Spec.setHeld, setParm, release_parms]
    by_cases e : q = p
    · simp [e]
    · rw [if_neg e, if_neg e]; exact r.none q
  · obtain ⟨ne, hd'⟩ := hsl q d hd
    obtain ⟨-, c', hc', e⟩ := hold q y (c y) ⟨c, hc, rfl⟩
    rw [← e]
    refine (r.slot q c' d y hc' hd').mono (le_refl _) (fun _ _ _ => rfl) fun k l hr hk => ⟨l, ?_, rfl⟩
    refine (huser k l).2 ⟨hk, fun m hm => ne ?_⟩
    exact (r.own p q .seed y k m (c' y) ⟨a, ha, hm⟩ ⟨c', hc', rfl⟩ hr).1.symm
  · intro q q' d d' y y' i hd hd'
    exact r.lib q q' d d' y y' i (hsl q d hd).2 (hsl q' d' hd').2
  · intro q q' y y' k n h g1 g2
    exact r.own q q' y y' k n h (hold q y _ g1).2 (hold q' y' _ g2).2
  · have hb : ∃ b, w.parms p = some b := by
      cases e : w.parms p with
      | none => rw [(r.none p).2 e] at ha; cases ha
      | some b => exact ⟨b, rfl⟩
    obtain ⟨b, hb⟩ := hb
    have hsd : (b .seed).data = none := hsf p b hb
    rcases hkp c l hc with h | h
    · exact h.elim
    · refine Or.inr ?_
      cases c with
      | user k =>
        obtain ⟨l', e⟩ := h
        refine ⟨l', (huser k l').2 ⟨e, fun m hm => ?_⟩⟩
        have := r.slot p a b .seed ha hb
        rw [hm] at this
        rw [this.2.1] at hsd
        cases hsd
      | lib i =>
        obtain ⟨q, d, y, e1, e2⟩ := h
        by_cases eq : q = p
        · subst eq
          rw [hb] at e1
          cases e1
          exfalso
          have := r.slot q a b y ha hb
          cases y with
          | gain => rw [h1] at this; rw [this.2] at e2; cases e2
          | config => rw [h2] at this; rw [this.2] at e2; cases e2
          | seed => rw [hsd] at e2; cases e2
        · exact ⟨q, d, y, by simp [setParm, eq, e1], e2⟩

theorem kept_free {w : World} {s : Spec} (r : Rel w s) {p : Nat} {a : Sl → Held} {b : Sl → Slot} (x : Sl)
    (ha : s.parms p = some a) (hb : w.parms p = some b) {w' : World} (hp : w'.parms = w.parms)
    (hu : ∀ k l, (emptied s p x a).user k = .live l ↔ s.user k = .live l ∧ ∀ m, a x ≠ .stolen k m)
    (hh : ∀ c, w'.heap c = if (b x).data = some c then none else w.heap c) (m : Nat)
    (hk : Kept w s fun _ => False) : Kept (forget w' p x b m) (emptied s p x a) fun _ => False := by
  intro c l hc
  change w'.heap c = some l at hc
  rw [hh] at hc
  by_cases hx : (b x).data = some c
  · rw [if_pos hx] at hc; cases hc
  rw [if_neg hx] at hc
  rcases hk c l hc with h | h
  · exact h.elim
  · refine Or.inr ?_
    cases c with
    | user k =>
      obtain ⟨l', e⟩ := h
      refine ⟨l', (hu k l').2 ⟨e, fun m hm => hx ?_⟩⟩
      have := r.slot p a b x ha hb
      rw [hm] at this
      exact this.2.1
    | lib i =>
      obtain ⟨q, d, y, e1, e2⟩ := h
      by_cases eq : q = p
      · subst eq
        rw [hb] at e1
        cases e1
        refine ⟨q, fun y => if y = x then ⟨none, none, m⟩ else b y, y, by simp [forget, setParm], ?_⟩
        have : y ≠ x := by rintro rfl; exact hx e2
        beta_reduce
        rw [if_neg this]
        exact e2
      · exact ⟨q, d, y, by simp [forget, setParm, eq, hp, e1], e2⟩

theorem step_destroy {w : World} {s : Spec} (r : Rel w s) {p : Nat} {a : Sl → Held} (ha : s.parms p = some a) :
    ∃ w2, destroy w p = some w2 ∧ Rel w2 (specStep s (.destroy p)) ∧
      (SeedFree w → Kept w s (fun _ => False) →
        SeedFree w2 ∧ Kept w2 (specStep s (.destroy p)) fun _ => False) := by
  obtain ⟨b, hb⟩ : ∃ b, w.parms p = some b := by
    cases e : w.parms p with
    | none => rw [(r.none p).2 e] at ha; cases ha
    | some b => exact ⟨b, rfl⟩
  obtain ⟨w1, f1, f2, f3, f4, f5, f6⟩ := rel_free r .gain ha hb 0
  have ha1 : (emptied s p .gain a).parms p = some fun y => if y = .gain then .empty else a y := by
    simp [emptied, Spec.setHeld]
  have hb1 : (forget w1 p .gain b 0).parms p = some fun y => if y = .gain then ⟨none, none, 0⟩ else b y := by
    simp [forget, setParm]
  obtain ⟨w2, g1, g2, g3, g4, g5, g6⟩ := rel_free f5 .config ha1 hb1 0
  have ha2 : (emptied (emptied s p .gain a) p .config (fun y => if y = .gain then .empty else a y)).parms p =
      some fun y => if y = .config then .empty else (fun y => if y = .gain then .empty else a y) y := by
    simp [emptied, Spec.setHeld]
  obtain ⟨d1, d2⟩ := rel_drop g5 ha2 (by simp) (by simp)
  -- freeing touches only the heap
  obtain ⟨w2', k1, k2⟩ : ∃ w2', free w1 (b .config).data = some w2' ∧
      setParm (forget w2 p .config (fun y => if y = .gain then ⟨none, none, 0⟩ else b y) 0) p none =
        setParm w2' p none := by
    simp only [reduceCtorEq, if_false] at g1
    cases hd : (b .config).data with
    | none =>
      rw [hd] at g1
      simp only [free, Option.some.injEq] at g1
      refine ⟨w1, rfl, ?_⟩
      rw [← g1]
      simp only [setParm, forget, World.mk.injEq, true_and]
      funext q
      by_cases e : q = p <;> simp [e]
    | some c =>
      rw [hd] at g1
      simp only [free] at g1 ⊢
      have hh : (forget w1 p .gain b 0).heap = w1.heap := rfl
      rw [hh] at g1
      cases hc : w1.heap c with
      | none => rw [hc] at g1; cases g1
      | some l =>
        rw [hc] at g1
        simp only [Option.map_some, Option.some.injEq] at g1
        refine ⟨_, rfl, ?_⟩
        rw [← g1]
        simp only [setParm, forget, setHeap, World.mk.injEq, true_and]
        funext q
        by_cases e : q = p <;> simp [e]
  have hs : specStep s (.destroy p) = (release (emptied (emptied s p .gain a) p .config
      (fun y => if y = .gain then .empty else a y)) (a .seed)).setHeld p none := by
    simp only [specStep, ha, emptied, reduceCtorEq, if_false]
    have hh : ∀ (s : Spec) (v : Option (Sl → Held)) (h : Held), release (s.setHeld p v) h = (release s h).setHeld p v := by
      intro s v h; cases h <;> rfl
    rw [hh, hh, hh]
    simp only [Spec.setHeld, Spec.mk.injEq, true_and]
    funext q
    by_cases e : q = p <;> simp [e, release_parms]
  rw [k2] at d1 d2
  simp only [reduceCtorEq, if_false] at d1 d2
  rw [← hs] at d1 d2
  refine ⟨setParm w2' p none, by simp only [destroy, hb, Option.bind_some, f1, k1, Option.map_some], d1, fun hsf hkp => ⟨?_, ?_⟩⟩
  · intro q d hd
    have hp : w2'.parms = w1.parms := by
      simp only [free] at k1
      cases hd' : (b .config).data with
      | none => rw [hd'] at k1; simp only [Option.some.injEq] at k1; rw [← k1]
      | some c =>
        rw [hd'] at k1
        simp only at k1
        cases hc : w1.heap c with
        | none => rw [hc] at k1; cases k1
        | some l => rw [hc] at k1; simp only [Option.map_some, Option.some.injEq] at k1; rw [← k1]; rfl
    simp only [setParm, hp, f2] at hd
    by_cases e : q = p
    · rw [if_pos e] at hd; cases hd
    · rw [if_neg e] at hd; exact hsf q d hd
  · have q1 := kept_free r .gain ha hb f2 f4 f6 0 hkp
    have q2 := kept_free f5 .config ha1 hb1 g2 g4 g6 0 q1
    refine d2 (fun q d hd => ?_) q2
    simp only [forget, setParm, g2, f2] at hd
    by_cases e : q = p
    · rw [if_pos e, Option.some.injEq] at hd
      rw [← hd]
      simp only [reduceCtorEq, if_false]
      exact hsf p b hb
    · rw [if_neg e, if_neg e] at hd
      exact hsf q d hd

/-- the numbers that are read. -/
theorem rd_spec {w : World} {s : Spec} (r : Rel w s) {p : Nat} {a : Sl → Held} {b : Sl → Slot} (x : Sl)
    (ha : s.parms p = some a) (hb : w.parms p = some b) (n : Nat) (hn : n ≤ (value s (a x)).length)
    (he : a x ≠ .empty) : rd w (b x).ref n = some ((value s (a x)).take n) := by
  have := r.slot p a b x ha hb
  revert this
  cases hax : a x with
  | empty => exact absurd hax he
  | priv l =>
    rintro ⟨i, _, e, _, e'⟩
    rw [hax] at hn
    simp only [value] at hn ⊢
    simp [rd, e, e', hn]
  | stolen k m =>
    rintro ⟨e, _, l, e', e''⟩
    rw [hax] at hn
    simp only [value, contents, e', List.length_take] at hn ⊢
    have h1 : n ≤ l.length := by omega
    have h2 : min n m = n := by omega
    simp [rd, e, r.user k l e', h1, List.take_take, h2]
  | borrowed k m =>
    rintro ⟨e, _, l, e', e''⟩
    rw [hax] at hn
    simp only [value, contents, e', List.length_take] at hn ⊢
    have h1 : n ≤ l.length := by omega
    have h2 : min n m = n := by omega
    simp [rd, e, r.user k l e', h1, List.take_take, h2]

theorem step_solve {w : World} {s : Spec} (r : Rel w s) {p : Nat} {q : List ℝ}
    (hA : Allowed s (.solve p q)) (hB : Avoids s (.solve p q)) : dqnull w p q = some (specOut s (.solve p q)) := by
  obtain ⟨a, ha, h1⟩ := hA
  obtain ⟨b, hb⟩ : ∃ b, w.parms p = some b := by
    cases e : w.parms p with
    | none => rw [(r.none p).2 e] at ha; cases ha
    | some b => exact ⟨b, rfl⟩
  by_cases he : a .config = .empty
  · have := r.slot p a b .config ha hb
    rw [he] at this
    simp [dqnull, hb, this.1, specOut, ha, he]
  · obtain ⟨h2, h3⟩ := h1 _ rfl he
    have hg : a .gain ≠ .empty := by
      rcases hB a ha with h | h
      · exact fun e => he (h.2 e)
      · exact absurd h he
    have e1 := rd_spec r .config ha hb q.length h2 he
    have e2 := rd_spec r .gain ha hb q.length (h3 hg) hg
    have hne : (b .config).ref ≠ none := by
      intro h
      rw [h] at e1
      simp [rd] at e1
    simp only [dqnull, hb, Option.bind_some, if_neg hne, e1, e2, Option.map_some, specOut, ha]

theorem step_spec {w : World} {s : Spec} (r : Rel w s) (o : Op) (hA : Allowed s o) (hB : Avoids s o) :
    ∃ w', step w o = some (specOut s o, w') ∧ Rel w' (specStep s o) ∧
      (NoSeed o → SeedFree w → Kept w s (fun _ => False) →
        SeedFree w' ∧ Kept w' (specStep s o) fun _ => False) := by
  have hk : ∀ k u v, (∀ l, v = some l → ∃ l', u = .live l') → Kept w s (fun _ => False) →
      Kept (setHeap w (.user k) v) (s.setUser k u) fun _ => False := by
    intro k u v hv hk c l hc
    simp only [setHeap] at hc
    refine Or.inr ?_
    by_cases e : c = .user k
    · subst e
      rw [if_pos rfl] at hc
      obtain ⟨l', e⟩ := hv l hc
      exact ⟨l', by simp [Spec.setUser, e]⟩
    · rw [if_neg e] at hc
      rcases hk c l hc with h | h
      · exact h.elim
      · cases c with
        | user j =>
          obtain ⟨l', e'⟩ := h
          refine ⟨l', ?_⟩
          have : j ≠ k := fun h => e (by rw [h])
          simp [Spec.setUser, this, e']
        | lib i => exact h
  cases o with
  | malloc k l =>
    refine ⟨_, rfl, rel_user r k (.live l) (some l) (fun l' e => by cases e; rfl) ?_, fun _ hs hk' => ⟨hs, hk k _ _ (fun l' e => ⟨l, rfl⟩) hk'⟩⟩
    intro p x h hh hr
    exfalso
    obtain ⟨a, ha, e⟩ := hh
    have hA : s.user k = .unused := hA
    cases hb : w.parms p with
    | none => rw [(r.none p).2 hb] at ha; cases ha
    | some b =>
      have := r.slot p a b x ha hb
      rw [e] at this
      rcases hr with ⟨n, rfl⟩ | ⟨n, rfl⟩
      · obtain ⟨_, _, l, e', _⟩ := this; rw [hA] at e'; cases e'
      · obtain ⟨_, _, l, e', _⟩ := this; rw [hA] at e'; cases e'
  | write k l =>
    obtain ⟨l0, h1, h2⟩ := hA
    refine ⟨setHeap w (.user k) (some l), by simp only [step, r.user k l0 h1, Option.bind_some, h2, if_true]; rfl, ?_, fun _ hs hk' => ⟨hs, hk k _ _ (fun l' e => ⟨l, rfl⟩) hk'⟩⟩
    exact rel_user r k (.live l) (some l) (fun l' e => by cases e; rfl) fun p x h _ _ => ⟨l0, l, h1, rfl, h2⟩
  | free k =>
    obtain ⟨⟨l, h1⟩, h2⟩ := hA
    refine ⟨setHeap w (.user k) none, by simp only [step, free, r.user k l h1, Option.map_some]; rfl, ?_, fun _ hs hk' => ⟨hs, hk k _ _ (fun l' e => by cases e) hk'⟩⟩
    exact rel_user r k .gone none (fun l' e => by cases e) fun p x h hh hr => absurd hr (h2 p x h hh)
  | create p =>
    have hA : s.parms p = none := hA
    have hw := (r.none p).1 hA
    have hsl : ∀ q d y, (create w p).parms q = some d → (q = p ∧ d y = ⟨none, none, 0⟩) ∨ (q ≠ p ∧ w.parms q = some d) := by
      intro q d y hd
      simp only [create, setParm] at hd
      by_cases e : q = p
      · rw [if_pos e, Option.some.injEq] at hd; exact Or.inl ⟨e, by rw [← hd]⟩
      · rw [if_neg e] at hd; exact Or.inr ⟨e, hd⟩
    have hold : ∀ q y h, Holds (specStep s (.create p)) q y h → h ≠ .empty → Holds s q y h := by
      rintro q y h ⟨c, e1, e2⟩ hne
      simp only [specStep, Spec.setHeld] at e1
      by_cases e : q = p
      · rw [if_pos e, Option.some.injEq] at e1
        rw [← e1] at e2
        exact absurd e2.symm hne
      · rw [if_neg e] at e1; exact ⟨c, e1, e2⟩
    refine ⟨_, rfl, ⟨r.user, fun q => ?_, fun q c d y hc hd => ?_, ?_, ?_⟩, fun _ hs hk' => ⟨fun q d hd => ?_, fun c l hc => ?_⟩⟩
    · simp only [specStep, Spec.setHeld, create, setParm]
      by_cases e : q = p
      · simp [e]
      · rw [if_neg e, if_neg e]; exact r.none q
    · simp only [specStep, Spec.setHeld] at hc
      rcases hsl q d y hd with ⟨e, e'⟩ | ⟨e, e'⟩
      · rw [if_pos e, Option.some.injEq] at hc
        rw [e', ← hc]
        exact ⟨rfl, rfl⟩
      · rw [if_neg e] at hc
        exact (r.slot q c d y hc e').mono (le_refl _) (fun _ _ _ => rfl) fun k l _ hk => ⟨l, hk, rfl⟩
    · intro q q' d d' y y' i hd hd' h1 h2
      rcases hsl q d y hd with ⟨_, e⟩ | ⟨_, e⟩
      · rw [e] at h1; cases h1
      · rcases hsl q' d' y' hd' with ⟨_, e'⟩ | ⟨_, e'⟩
        · rw [e'] at h2; cases h2
        · exact r.lib q q' d d' y y' i e e' h1 h2
    · intro q q' y y' k n h h1 h2 h3
      exact r.own q q' y y' k n h (hold q y _ h1 (by simp))
        (hold q' y' h h2 (by rintro rfl; rcases h3 with ⟨n, e⟩ | ⟨n, e⟩ <;> cases e)) h3
    · rcases hsl q d .seed hd with ⟨_, e⟩ | ⟨_, e⟩
      · rw [e]
      · exact hs q d e
    · rcases hk' c l hc with h | h
      · exact h.elim
      · refine Or.inr ?_
        cases c with
        | user k => exact h
        | lib i =>
          obtain ⟨q, d, y, e1, e2⟩ := h
          have : q ≠ p := by rintro rfl; rw [hw] at e1; cases e1
          exact ⟨q, d, y, by simp [create, setParm, this, e1], e2⟩
  | take p x k n op =>
    obtain ⟨w2, e1, e2, e3⟩ := step_take r hA hB
    refine ⟨w2, by simp only [step, e1, Option.map_some]; rfl, ?_, ?_⟩
    · rw [specStep_take]; exact e2
    · rw [specStep_take]; exact fun hx => e3 hx
  | centerConfigs p q g =>
    obtain ⟨⟨a, ha⟩, -⟩ := hA
    obtain ⟨w2, e1, e2, e3⟩ := step_centerConfigs r ha q g
    exact ⟨w2, by simp only [step, e1, Option.map_some]; rfl, e2, fun _ => e3⟩
  | centerSeed p q =>
    obtain ⟨a, ha⟩ := hA
    obtain ⟨w2, e1, e2⟩ := step_centerSeed r ha q
    exact ⟨w2, by simp only [step, e1, Option.map_some]; rfl, e2, fun h => h.elim⟩
  | destroy p =>
    obtain ⟨a, ha⟩ := hA
    obtain ⟨w2, e1, e2, e3⟩ := step_destroy r ha
    exact ⟨w2, by simp only [step, e1, Option.map_some]; rfl, e2, fun _ => e3⟩
  | solve p q =>
    exact ⟨w, by simp only [step, step_solve r hA hB, Option.map_some], r, fun _ h1 h2 => ⟨h1, h2⟩⟩

theorem run_spec (os : List Op) : ∀ {w : World} {s : Spec}, Rel w s → Along Allowed s os → Along Avoids s os →
    ∃ w', run w os = some (specOuts s os, w') ∧ Rel w' (specEnd s os) ∧
      ((∀ o ∈ os, NoSeed o) → SeedFree w → Kept w s (fun _ => False) →
        SeedFree w' ∧ Kept w' (specEnd s os) fun _ => False) := by
  induction os with
  | nil => intro w s r _ _; exact ⟨w, rfl, r, fun _ h1 h2 => ⟨h1, h2⟩⟩
  | cons o os ih =>
    rintro w s r ⟨a1, a2⟩ ⟨b1, b2⟩
    obtain ⟨w1, e1, e2, e3⟩ := step_spec r o a1 b1
    obtain ⟨w2, f1, f2, f3⟩ := ih e2 a2 b2
    refine ⟨w2, by simp only [run, e1, Option.bind_some, f1, Option.map_some, specOuts], f2, fun h h1 h2 => ?_⟩
    obtain ⟨h3, h4⟩ := e3 (h o (by simp)) h1 h2
    exact f3 (fun o' ho => h o' (by simp [ho])) h3 h4

/-! ## Properties -/

/-- **C130 (use)** (partial: no array is given again the block it owns; a reference comes with gains). Every sequence
of calls that follows the rules of the three modes is free of invalid accesses and double frees, and every solver is
led to the reference with the gains that the caller gave. -/
theorem C130_use_partial (os : List Op) (hA : Along Allowed spec0 os) (hB : Along Avoids spec0 os) :
    ∃ w, run init os = some (specOuts spec0 os, w) ∧
      ∀ k l, (specEnd spec0 os).user k = .live l → w.heap (.user k) = some l := by
  obtain ⟨w, e1, e2, -⟩ := run_spec os rel_init hA hB
  exact ⟨w, e1, e2.user⟩

/-- **C130 (release)** (partial: as above, and no array was copied or stolen as seed). Once all parameter objects are
destroyed, all that is allocated are the blocks that the caller has neither freed nor given away. -/
theorem C130_release_partial (os : List Op) (hA : Along Allowed spec0 os) (hB : Along Avoids spec0 os)
    (hS : ∀ o ∈ os, NoSeed o) (hD : ∀ p, (specEnd spec0 os).parms p = none) :
    ∃ w, run init os = some (specOuts spec0 os, w) ∧
      ∀ c l, w.heap c = some l → ∃ k, c = .user k ∧ ∃ l', (specEnd spec0 os).user k = .live l' := by
  obtain ⟨w, e1, e2, e3⟩ := run_spec os rel_init hA hB
  obtain ⟨-, h⟩ := e3 hS (fun p b h => by simp [init] at h) (fun c l h => by simp [init] at h)
  refine ⟨w, e1, fun c l hc => ?_⟩
  rcases h c l hc with h | h
  · exact h.elim
  · cases c with
    | user k => exact ⟨k, rfl, h⟩
    | lib i =>
      obtain ⟨p, b, x, e, _⟩ := h
      rw [(e2.none p).1 (hD p)] at e
      cases e

/-! ### Cases that meet the hypotheses -/

/-- Copying a reference, borrowing gains that are changed later, stealing a new reference, solving between; all
memory is returned. -/
def story : List Op :=
  [.malloc 0 [1, 2], .malloc 1 [3, 4], .malloc 2 [5, 6], .create 0,
    .take 0 .config 0 2 .copy, .take 0 .gain 1 2 .borrow, .write 0 [9, 9], .solve 0 [0, 0],
    .write 1 [7, 8], .take 0 .config 2 2 .steal, .solve 0 [0, 0], .centerConfigs 0 [1] [1], .solve 0 [0],
    .take 0 .config 0 2 .borrow, .take 0 .gain 0 2 .copy, .destroy 0, .free 0, .free 1]

theorem story_allowed : Along Allowed spec0 story ∧ Along Avoids spec0 story := by
  constructor <;>
  simp [story, Along, Allowed, Avoids, specStep, spec0, Spec.setUser, Spec.setHeld, put, release, Holds, Refers,
    value, contents]
  refine ⟨fun p x => ?_, fun p x => ?_, fun p x => ?_, fun p x => ?_, fun p x => ?_⟩
  all_goals by_cases h : p = 0 <;> simp [h]
  all_goals cases x <;> simp

/-- what the solver is told. -/
example : specOuts spec0 story = [none, none, none, none, none, none, none, some [-3 * (0 - 1), -4 * (0 - 2)],
    none, none, some [-7 * (0 - 5), -8 * (0 - 6)], none, some [-1 * (0 - 1)], none, none, none, none, none] := by
  simp [story, specOuts, specOut, specStep, spec0, Spec.setUser, Spec.setHeld, put, release, value, contents]

example : ∃ w, run init story = some (specOuts spec0 story, w) ∧ ∀ c l, w.heap c ≠ some l := by
  obtain ⟨w, h1, h2⟩ := C130_release_partial story story_allowed.1 story_allowed.2
    (by simp [story, NoSeed]) (by
      intro p
      simp [story, specEnd, specStep, spec0, Spec.setUser, Spec.setHeld, put, release]
      by_cases h : p = 0 <;> simp [h])
  refine ⟨w, h1, fun c l hc => ?_⟩
  obtain ⟨k, -, l', e⟩ := h2 c l hc
  revert e
  simp [story, specEnd, specStep, spec0, Spec.setUser, Spec.setHeld, put, release, value, contents]
  by_cases h1 : k = 1
  · simp [h1]
  by_cases h2 : k = 2
  · simp [h1, h2]
  by_cases h0 : k = 0 <;> simp [h0, h1, h2]

/-! ### What the code does not do -/

/-- The reference owns block 0.  Copying (a part of) block 0 into the reference reads the block after it was freed. -/
theorem C130_violates_copy_of_owned (l : List ℝ) (n m : Nat) :
    run init [.malloc 0 l, .create 0, .take 0 .config 0 n .steal, .take 0 .config 0 m .copy] = none := by
  simp [run, step, init, IkParm.create, IkParm.take, IkParm.free, dupop, rd, setHeap, setParm]

/-- Giving the reference block 0 again frees the block and keeps the pointer: it is freed a second time on
destruction. -/
theorem C130_violates_steal_again (l : List ℝ) (n m : Nat) :
    run init [.malloc 0 l, .create 0, .take 0 .config 0 n .steal, .take 0 .config 0 m .steal, .destroy 0] = none := by
  simp [run, step, init, IkParm.create, IkParm.take, IkParm.free, IkParm.destroy, dupop, setHeap, setParm]

/-- All the calls up to there follow the rules. -/
example (l : List ℝ) : Along Allowed spec0 [.malloc 0 l, .create 0, .take 0 .config 0 l.length .steal,
    .take 0 .config 0 l.length .copy] := by
  simp [Along, Allowed, specStep, spec0, Spec.setUser, Spec.setHeld, put, release, Holds, Refers]
  try grind

/-- A seed that was copied is never freed. -/
theorem C130_violates_seed_leak (l : List ℝ) :
    ∃ w, run init [.malloc 0 l, .create 0, .take 0 .seed 0 l.length .copy, .destroy 0, .free 0] =
        some ([none, none, none, none, none], w) ∧
      (∀ p, w.parms p = none) ∧ w.heap (.lib 0) = some l ∧ ∀ k, w.heap (.user k) = none := by
  refine ⟨_, by
    simp [run, step, init, IkParm.create, IkParm.take, IkParm.free, IkParm.destroy, dupop, rd, libAlloc, setHeap,
      setParm]
    rfl, fun p => ?_, ?_, fun k => ?_⟩
  · by_cases h : p = 0 <;> simp [h]
  · simp
  · by_cases h : k = 0 <;> simp [h]

/-- A seed that was stolen is never freed. -/
theorem C130_violates_seed_stolen (l : List ℝ) (n : Nat) :
    ∃ w, run init [.malloc 0 l, .create 0, .take 0 .seed 0 n .steal, .destroy 0] =
        some ([none, none, none, none], w) ∧
      (∀ p, w.parms p = none) ∧ w.heap (.user 0) = some l := by
  refine ⟨_, by
    simp [run, step, init, IkParm.create, IkParm.take, IkParm.free, IkParm.destroy, dupop, setHeap, setParm]
    rfl, fun p => ?_, ?_⟩
  · by_cases h : p = 0 <;> simp [h]
  · simp

/-- Solving with a reference and no gains reads through a null pointer. -/
theorem C130_violates_no_gains (l q : List ℝ) :
    run init [.malloc 0 l, .create 0, .take 0 .config 0 l.length .copy, .solve 0 q] = none := by
  simp [run, step, init, IkParm.create, IkParm.take, IkParm.free, dupop, rd, libAlloc, setHeap, setParm, dqnull]

/-- The configuration from which solving starts does not depend on the seed of the parameters: it is the centered
configuration, whatever was taken as seed before or after. -/
theorem C130_violates_seed_ignored (p : Nat) (frame : Int) (nAll : Nat) (ees : List Int) (center : List ℝ)
    (ids : List Nat) : (solveStart (cxCreate p frame nAll ees center) ids).1 = center := rfl

end Verif.IkParm
