import Verif.Model.WinShow
import Mathlib.Tactic.Linarith

/-!
# C132: a window shows the scene graph and the configuration last set
-/

namespace Verif.WinShow

variable {α : Type} [Zero α]

/-! ## Spec -/

/-- what is to be shown. -/
inductive Show (α : Type)
  | nothing
  | graph (g : Sg)
  | seq (r : Nat)
  | plan (g : Sg) (l : List α)

/-- what is to be shown and the configuration, after the calls of a list. -/
def after (a : Show α × List α) : Op α → Show α × List α
  | .setSg g => (.graph g, List.replicate g.n 0)
  | .setConfig l => (a.1, l)
  | .setSeq r => (.seq r, a.2)
  | .setPlan g l => (.plan g l, a.2)
  | _ => a

def current (os : List (Op α)) : Show α × List α := os.foldl after (.nothing, [])

/-- the frame that shows this. -/
def picture (a : Show α × List α) : Obs α :=
  match a.1 with
  | .nothing => .blank
  | .graph g => .graph g (a.2.take g.n)
  | .seq r => .seq r
  | .plan g l => .plan g l

/-- what a step shows. -/
def expected (a : Show α × List α) (s : St α) : Op α → Option (Obs α)
  | .getConfig n => some (.config (a.2.take n))
  | .isRunning => some (.running !s.stop)
  | .tick _ _ => match s.phase with
    | .frame _ _ _ => some (picture a)
    | _ => none
  | _ => none

def InFrame (s : St α) : Prop := ∃ u f c, s.phase = .frame u f c

/-- what the partial theorems leave out: sequences and plans must not be set while a frame is drawn (these functions
do not wait for the mutex), and a configuration must not be shorter than the graph shown needs when a frame is
drawn.  The other functions wait. -/
def Avoids (os : List (Op α)) (s : St α) : Op α → Prop
  | .tick _ _ => ∀ g, (current os).1 = .graph g → g.n ≤ (current os).2.length
  | .isRunning => True
  | .run => True
  | _ => ¬ InFrame s

/-- a condition on each step of a run. -/
def Along (P : List (Op α) → St α → Op α → Prop) (os : List (Op α)) (s : St α) : List (Op α) → Prop
  | [] => True
  | o :: rest => P os s o ∧ ∀ r, step s o = some r → Along P (os ++ [o]) r.1 rest

/-! ## Proof -/

/-- the memory refers to what is to be shown. -/
def Shows (s : St α) : Show α → Prop
  | .nothing => s.display = .deflt ∧ s.cx = none ∧ s.del = .null
  | .graph g => s.display = .deflt ∧ (∃ k, s.cx = some k ∧ s.heap k = some (.cx g)) ∧ s.del = .free ∧ s.updated = true
  | .seq r => s.display = .seq ∧ (∃ k, s.cx = some k ∧ s.heap k = some (.mp (.user r))) ∧ s.del = .free
  | .plan g l => s.display = .seq ∧ (∃ k j, s.cx = some k ∧ s.heap k = some (.mp (.own j)) ∧
      s.heap j = some (.plan g l)) ∧ s.del = .plan

structure Inv (s : St α) (a : Show α × List α) : Prop where
  shows : Shows s a.1
  q : (s.q = none ∧ a.2 = [] ∧ s.nq = 0) ∨ ∃ k, s.q = some k ∧ s.heap k = some (.arr a.2) ∧ s.nq = a.2.length
  old : ∀ k b, s.heap k = some b → k < s.next
  frame : ∀ u f c, s.phase = .frame u f c → f = s.display ∧ c = s.cx
  /-- contexts and plans are referred to -/
  cxs : ∀ k g, s.heap k = some (.cx g) → s.cx = some k
  mps : ∀ k r, s.heap k = some (.mp r) → s.cx = some k
  plans : ∀ j g l, s.heap j = some (.plan g l) → ∃ k, s.cx = some k ∧ s.heap k = some (.mp (.own j))

omit [Zero α] in
theorem inv_create : Inv (create : St α) (.nothing, []) :=
  ⟨⟨rfl, rfl, rfl⟩, Or.inl ⟨rfl, rfl, rfl⟩, by simp [create], by simp [create], by simp [create], by simp [create],
    by simp [create]⟩

omit [Zero α] in
theorem free_eq {s : St α} {k : Nat} {b : Blk α} (h : s.heap k = some b) :
    free s k = some { s with heap := Function.update s.heap k none } := by
  simp [free, h]

/-- the heap without the current context. -/
def NoCx (h : Nat → Option (Blk α)) : Prop := ∀ k b, h k = some b → ∃ l, b = .arr l

omit [Zero α] in
/-- `destroy_cx` gets rid of the context and nothing else. -/
theorem destroyCx_spec {s : St α} {a : Show α × List α} (hi : Inv s a) (t : St α) (hc : t.cx = s.cx) (hd : t.del = s.del)
    (hh : ∀ k b, s.heap k = some b → t.heap k = some b) :
    ∃ t', destroyCx t = some t' ∧ t' = { t with heap := t'.heap } ∧
      (∀ k, s.heap k = none → t'.heap k = t.heap k) ∧
      (∀ k l, s.heap k = some (.arr l) → t'.heap k = t.heap k) ∧
      ∀ k b, s.heap k = some b → (∃ l, b = .arr l) ∨ t'.heap k = none := by
  obtain ⟨sh, sq⟩ := a
  cases sh with
  | nothing =>
    obtain ⟨h1, h2, h3⟩ := hi.shows
    refine ⟨t, by simp [destroyCx, hd, h3], rfl, fun _ _ => rfl, fun _ _ _ => rfl, fun k b hb => ?_⟩
    cases b with
    | arr l => exact Or.inl ⟨l, rfl⟩
    | cx g => have := hi.cxs k g hb; simp [h2] at this
    | mp r => have := hi.mps k r hb; simp [h2] at this
    | plan g l => obtain ⟨k', h, -⟩ := hi.plans k g l hb; simp [h2] at h
  | graph g =>
    obtain ⟨h1, ⟨k, h2, h2'⟩, h3, -⟩ := hi.shows
    refine ⟨{ t with heap := Function.update t.heap k none }, ?_, rfl, fun x hx => ?_, fun x l hx => ?_, fun x b hb => ?_⟩
    · have e : destroyCx t = free t k := by simp only [destroyCx, hd, h3, hc, h2]
      rw [e]
      exact free_eq (hh k _ h2')
    · have : x ≠ k := by rintro rfl; simp [h2'] at hx
      simp [this]
    · have : x ≠ k := by rintro rfl; simp [h2'] at hx
      simp [this]
    · cases b with
      | arr l => exact Or.inl ⟨l, rfl⟩
      | cx g => have := hi.cxs x g hb; rw [h2] at this; cases this; right; simp
      | mp r => have := hi.mps x r hb; rw [h2] at this; cases this; right; simp
      | plan g l => obtain ⟨k', h, h'⟩ := hi.plans x g l hb; rw [h2] at h; cases h; simp [h2'] at h'
  | seq r =>
    obtain ⟨h1, ⟨k, h2, h2'⟩, h3⟩ := hi.shows
    refine ⟨{ t with heap := Function.update t.heap k none }, ?_, rfl, fun x hx => ?_, fun x l hx => ?_, fun x b hb => ?_⟩
    · have e : destroyCx t = free t k := by simp only [destroyCx, hd, h3, hc, h2]
      rw [e]
      exact free_eq (hh k _ h2')
    · have : x ≠ k := by rintro rfl; simp [h2'] at hx
      simp [this]
    · have : x ≠ k := by rintro rfl; simp [h2'] at hx
      simp [this]
    · cases b with
      | arr l => exact Or.inl ⟨l, rfl⟩
      | cx g => have := hi.cxs x g hb; rw [h2] at this; cases this; right; simp
      | mp r => have := hi.mps x r hb; rw [h2] at this; cases this; right; simp
      | plan g l => obtain ⟨k', h, h'⟩ := hi.plans x g l hb; rw [h2] at h; cases h; simp [h2'] at h'
  | plan g l =>
    obtain ⟨h1, ⟨k, j, h2, h2', h2''⟩, h3⟩ := hi.shows
    have hkj : k ≠ j := by rintro rfl; simp [h2'] at h2''
    refine ⟨{ t with heap := Function.update (Function.update t.heap j none) k none }, ?_, rfl, fun x hx => ?_,
      fun x l hx => ?_, fun x b hb => ?_⟩
    · have e : destroyCx t = destroyPlan t k := by simp only [destroyCx, hd, h3, hc, h2]
      rw [e]
      simp only [destroyPlan, hh k _ h2', free_eq (hh j _ h2''), Option.bind_some]
      exact free_eq (b := .mp (.own j)) (by simp [hkj, hh k _ h2'])
    · have : x ≠ k := by rintro rfl; simp [h2'] at hx
      have : x ≠ j := by rintro rfl; simp [h2''] at hx
      simp [*]
    · have : x ≠ k := by rintro rfl; simp [h2'] at hx
      have : x ≠ j := by rintro rfl; simp [h2''] at hx
      simp [*]
    · cases b with
      | arr l => exact Or.inl ⟨l, rfl⟩
      | cx g => have := hi.cxs x g hb; rw [h2] at this; cases this; right; simp
      | mp r => have := hi.mps x r hb; rw [h2] at this; cases this; right; simp
      | plan g l =>
        obtain ⟨k', h, h'⟩ := hi.plans x g l hb
        rw [h2] at h; cases h
        rw [h2'] at h'
        cases h'
        right
        simp [hkj.symm]

omit [Zero α] in
/-- setting a display function whose context is new. -/
theorem setDisplay_spec {s : St α} {a : Show α × List α} (hi : Inv s a) (t : St α) (hc : t.cx = s.cx)
    (hd : t.del = s.del) (hh : ∀ k, k < s.next → t.heap k = s.heap k) (f : Fn) (c : Option Nat) (d : Del) :
    ∃ h', setDisplay t f c d = some { t with display := f, cx := c, del := d, heap := h' } ∧
      (∀ k, s.next ≤ k → h' k = t.heap k) ∧
      (∀ k l, s.heap k = some (.arr l) → h' k = some (.arr l)) ∧
      ∀ k b, k < s.next → h' k = some b → ∃ l, b = .arr l := by
  have hn : ∀ k, s.next ≤ k → s.heap k = none := fun k hk => by
    cases e : s.heap k with
    | none => rfl
    | some b => have := hi.old k b e; omega
  obtain ⟨t', e, e', h1, h2, h3⟩ := destroyCx_spec hi t hc hd fun k b hb => by rw [hh k (hi.old k b hb), hb]
  refine ⟨t'.heap, ?_, fun k hk => h1 k (hn k hk), fun k l hl => ?_, fun k b hk hb => ?_⟩
  · rw [setDisplay, e, Option.map_some, e']
  · rw [h2 k l hl, hh k (hi.old k _ hl), hl]
  · cases e : s.heap k with
    | none => rw [h1 k e, hh k hk, e] at hb; cases hb
    | some b' =>
      rcases h3 k b' e with ⟨l, rfl⟩ | h
      · rw [h2 k l e, hh k hk, e] at hb; cases hb; exact ⟨l, rfl⟩
      · rw [h] at hb; cases hb

theorem setSg_inv {s : St α} {a : Show α × List α} (hi : Inv s a) (hf : ¬ InFrame s) (g : Sg) :
    ∃ s', setSg s g = some s' ∧ Inv s' (.graph g, List.replicate g.n 0) := by
  obtain ⟨h', e, h1, h2, h3⟩ := setDisplay_spec hi
    { new (new s (.cx g)) (.arr (List.replicate g.n 0)) with q := some (new s (.cx g)).next, nq := g.n } rfl rfl
    (fun k hk => by
      have a1 : k ≠ s.next := by omega
      have a2 : k ≠ s.next + 1 := by omega
      simp [new, a1, a2]) .deflt (some s.next) .free
  refine ⟨_, by simp only [setSg]; rw [e]; rfl, ?_⟩
  have hk : ∀ k b, h' k = some b → (k < s.next ∧ ∃ l, b = .arr l) ∨ (k = s.next ∧ b = .cx g) ∨
      (k = s.next + 1 ∧ b = .arr (List.replicate g.n 0)) := by
    intro k b hb
    by_cases h : k < s.next
    · exact Or.inl ⟨h, h3 k b h hb⟩
    · rw [h1 k (by omega)] at hb
      have hn : s.heap k = none := by
        cases e : s.heap k with
        | none => rfl
        | some b => have := hi.old k b e; omega
      by_cases a2 : k = s.next + 1
      · subst a2
        simp [new] at hb
        exact Or.inr (Or.inr ⟨rfl, hb.symm⟩)
      · by_cases a1 : k = s.next
        · subst a1
          simp [new] at hb
          exact Or.inr (Or.inl ⟨rfl, hb.symm⟩)
        · simp [new, a1, a2, hn] at hb
  have g0 : h' s.next = some (.cx g) := by rw [h1 _ (le_refl _)]; simp [new]
  have g1 : h' (s.next + 1) = some (.arr (List.replicate g.n 0)) := by rw [h1 _ (by omega)]; simp [new]
  refine ⟨⟨rfl, ⟨s.next, rfl, g0⟩, rfl, rfl⟩, Or.inr ⟨s.next + 1, rfl, g1, by simp⟩, fun k b hb => ?_, fun u f c e => ?_,
    fun k g' hb => ?_, fun k r hb => ?_, fun j g' l hb => ?_⟩
  · show k < s.next + 1 + 1
    rcases hk k b hb with ⟨h, -⟩ | ⟨h, -⟩ | ⟨h, -⟩ <;> omega
  · exact absurd ⟨u, f, c, e⟩ hf
  · rcases hk k _ hb with ⟨-, l, h⟩ | ⟨rfl, -⟩ | ⟨-, h⟩
    · cases h
    · rfl
    · cases h
  · rcases hk k _ hb with ⟨-, l, h⟩ | ⟨-, h⟩ | ⟨-, h⟩ <;> cases h
  · rcases hk j _ hb with ⟨-, l, h⟩ | ⟨-, h⟩ | ⟨-, h⟩ <;> cases h

omit [Zero α] in
theorem setSeq_inv {s : St α} {a : Show α × List α} (hi : Inv s a) (hf : ¬ InFrame s) (r : Nat) :
    ∃ s', setSeq s r = some s' ∧ Inv s' (.seq r, a.2) := by
  obtain ⟨h', e, h1, h2, h3⟩ := setDisplay_spec hi (new s (.mp (.user r))) rfl rfl
    (fun k hk => by
      have a1 : k ≠ s.next := by omega
      simp [new, a1]) .seq (some s.next) .free
  refine ⟨_, e, ?_⟩
  have hk : ∀ k b, h' k = some b → (k < s.next ∧ ∃ l, b = .arr l) ∨ (k = s.next ∧ b = .mp (.user r)) := by
    intro k b hb
    by_cases h : k < s.next
    · exact Or.inl ⟨h, h3 k b h hb⟩
    · rw [h1 k (by omega)] at hb
      have hn : s.heap k = none := by
        cases e : s.heap k with
        | none => rfl
        | some b => have := hi.old k b e; omega
      by_cases a1 : k = s.next
      · subst a1
        simp [new] at hb
        exact Or.inr ⟨rfl, hb.symm⟩
      · simp [new, a1, hn] at hb
  have g0 : h' s.next = some (.mp (.user r)) := by rw [h1 _ (le_refl _)]; simp [new]
  refine ⟨⟨rfl, ⟨s.next, rfl, g0⟩, rfl⟩, ?_, fun k b hb => ?_, fun u f c e => ?_, fun k g' hb => ?_, fun k r hb => ?_,
    fun j g' l hb => ?_⟩
  · rcases hi.q with h | ⟨k, b1, b2, b3⟩
    · exact Or.inl h
    · exact Or.inr ⟨k, b1, h2 k _ b2, b3⟩
  · show k < s.next + 1
    rcases hk k b hb with ⟨h, -⟩ | ⟨h, -⟩ <;> omega
  · exact absurd ⟨u, f, c, e⟩ hf
  · rcases hk k _ hb with ⟨-, l, h⟩ | ⟨-, h⟩ <;> cases h
  · rcases hk k _ hb with ⟨-, l, h⟩ | ⟨rfl, -⟩
    · cases h
    · rfl
  · rcases hk j _ hb with ⟨-, l, h⟩ | ⟨-, h⟩ <;> cases h

omit [Zero α] in
theorem setPlan_inv {s : St α} {a : Show α × List α} (hi : Inv s a) (hf : ¬ InFrame s) (g : Sg) (l : List α) :
    ∃ s', setPlan s g l = some s' ∧ Inv s' (.plan g l, a.2) := by
  obtain ⟨h', e, h1, h2, h3⟩ := setDisplay_spec hi (new (new s (.plan g l)) (.mp (.own s.next))) rfl rfl
    (fun k hk => by
      have a1 : k ≠ s.next := by omega
      have a2 : k ≠ s.next + 1 := by omega
      simp [new, a1, a2]) .seq (some (s.next + 1)) .plan
  refine ⟨_, e, ?_⟩
  have hk : ∀ k b, h' k = some b → (k < s.next ∧ ∃ l, b = .arr l) ∨ (k = s.next ∧ b = .plan g l) ∨
      (k = s.next + 1 ∧ b = .mp (.own s.next)) := by
    intro k b hb
    by_cases h : k < s.next
    · exact Or.inl ⟨h, h3 k b h hb⟩
    · rw [h1 k (by omega)] at hb
      have hn : s.heap k = none := by
        cases e : s.heap k with
        | none => rfl
        | some b => have := hi.old k b e; omega
      by_cases a2 : k = s.next + 1
      · subst a2
        simp [new] at hb
        exact Or.inr (Or.inr ⟨rfl, hb.symm⟩)
      · by_cases a1 : k = s.next
        · subst a1
          simp [new] at hb
          exact Or.inr (Or.inl ⟨rfl, hb.symm⟩)
        · simp [new, a1, a2, hn] at hb
  have g0 : h' s.next = some (.plan g l) := by rw [h1 _ (le_refl _)]; simp [new]
  have g1 : h' (s.next + 1) = some (.mp (.own s.next)) := by rw [h1 _ (by omega)]; simp [new]
  refine ⟨⟨rfl, ⟨s.next + 1, s.next, rfl, g1, g0⟩, rfl⟩, ?_, fun k b hb => ?_, fun u f c e => ?_, fun k g' hb => ?_,
    fun k r hb => ?_, fun j g' l' hb => ?_⟩
  · rcases hi.q with h | ⟨k, b1, b2, b3⟩
    · exact Or.inl h
    · exact Or.inr ⟨k, b1, h2 k _ b2, b3⟩
  · show k < s.next + 1 + 1
    rcases hk k b hb with ⟨h, -⟩ | ⟨h, -⟩ | ⟨h, -⟩ <;> omega
  · exact absurd ⟨u, f, c, e⟩ hf
  · rcases hk k _ hb with ⟨-, l, h⟩ | ⟨-, h⟩ | ⟨-, h⟩ <;> cases h
  · rcases hk k _ hb with ⟨-, l, h⟩ | ⟨-, h⟩ | ⟨rfl, -⟩
    · cases h
    · cases h
    · rfl
  · rcases hk j _ hb with ⟨-, l, h⟩ | ⟨rfl, -⟩ | ⟨-, h⟩
    · cases h
    · exact ⟨s.next + 1, rfl, g1⟩
    · cases h

omit [Zero α] in
theorem setConfig_inv {s : St α} {a : Show α × List α} (hi : Inv s a) (l : List α) :
    ∃ s', setConfig s l = some s' ∧ Inv s' (a.1, l) := by
  -- the block of the configuration is freed
  have hq : ∃ h', freeQ s = some { s with heap := h' } ∧ (∀ k b, h' k = some b → s.heap k = some b) ∧
      ∀ k b, s.heap k = some b → (∃ l, b = .arr l) ∨ h' k = some b := by
    rcases hi.q with ⟨e, -, -⟩ | ⟨k, e, e', -⟩
    · have hs : freeQ s = some s := by simp only [freeQ, e]
      exact ⟨s.heap, hs, fun _ _ h => h, fun _ _ h => Or.inr h⟩
    · refine ⟨Function.update s.heap k none, ?_, fun x b hb => ?_, fun x b hb => ?_⟩
      · have : freeQ s = free s k := by simp only [freeQ, e]
        rw [this]
        exact free_eq e'
      · by_cases h : x = k
        · subst h; simp at hb
        · simpa [h] using hb
      · by_cases h : x = k
        · subst h; rw [e'] at hb; cases hb; exact Or.inl ⟨_, rfl⟩
        · right; simpa [h] using hb
  obtain ⟨h', e, h1, h2⟩ := hq
  refine ⟨_, by rw [setConfig, e]; rfl, ?_⟩
  have ho : ∀ k b, s.heap k = some b → (∀ l, b ≠ .arr l) → Function.update h' s.next (some (.arr l)) k = some b := by
    intro k b hb hl
    have a1 : k ≠ s.next := by have := hi.old k b hb; omega
    rcases h2 k b hb with ⟨l, rfl⟩ | h
    · exact absurd rfl (hl l)
    · simpa [a1] using h
  have hk : ∀ k b, Function.update h' s.next (some (.arr l)) k = some b →
      s.heap k = some b ∨ (k = s.next ∧ b = .arr l) := by
    intro k b hb
    by_cases a1 : k = s.next
    · subst a1; simp at hb; exact Or.inr ⟨rfl, hb.symm⟩
    · simp [a1] at hb; exact Or.inl (h1 k b hb)
  refine ⟨?_, Or.inr ⟨s.next, rfl, by simp [new], rfl⟩, fun k b hb => ?_, hi.frame, fun k g' hb => ?_,
    fun k r hb => ?_, fun j g' l' hb => ?_⟩
  · have := hi.shows
    cases e : a.1 with
    | nothing => rw [e] at this; exact this
    | graph g =>
      rw [e] at this
      obtain ⟨c1, ⟨k, c2, c3⟩, c4⟩ := this
      exact ⟨c1, ⟨k, c2, ho k _ c3 (by simp)⟩, c4⟩
    | seq r =>
      rw [e] at this
      obtain ⟨c1, ⟨k, c2, c3⟩, c4⟩ := this
      exact ⟨c1, ⟨k, c2, ho k _ c3 (by simp)⟩, c4⟩
    | plan g l =>
      rw [e] at this
      obtain ⟨c1, ⟨k, j, c2, c3, c5⟩, c4⟩ := this
      exact ⟨c1, ⟨k, j, c2, ho k _ c3 (by simp), ho j _ c5 (by simp)⟩, c4⟩
  · show k < s.next + 1
    rcases hk k b hb with h | ⟨h, -⟩
    · have := hi.old k b h; omega
    · omega
  · rcases hk k _ hb with h | ⟨-, h⟩
    · exact hi.cxs k g' h
    · cases h
  · rcases hk k _ hb with h | ⟨-, h⟩
    · exact hi.mps k r h
    · cases h
  · rcases hk j _ hb with h | ⟨-, h⟩
    · obtain ⟨k, d1, d2⟩ := hi.plans j g' l' h
      exact ⟨k, d1, ho k _ d2 (by simp)⟩
    · cases h

omit [Zero α] in
theorem readQ_eq {s : St α} {a : Show α × List α} (hi : Inv s a) {n : Nat} (hn : n ≤ a.2.length) :
    readQ s n = some (a.2.take n) := by
  unfold readQ
  by_cases h : n = 0
  · simp [h]
  · rw [if_neg h]
    rcases hi.q with ⟨-, e, -⟩ | ⟨k, e, e', -⟩
    · rw [e] at hn; simp at hn; exact absurd hn h
    · simp [e, e', hn]

omit [Zero α] in
theorem draw_eq {s : St α} {a : Show α × List α} (hi : Inv s a) (upd : Bool)
    (hn : ∀ g, a.1 = .graph g → g.n ≤ a.2.length) : draw s upd s.display s.cx = some (picture a) := by
  obtain ⟨sh, l⟩ := a
  have := hi.shows
  cases sh with
  | nothing =>
    obtain ⟨h1, h2, h3⟩ := this
    simp [draw, h1, h2, picture]
  | graph g =>
    obtain ⟨h1, ⟨k, h2, h3⟩, h4, h5⟩ := this
    simp [draw, h1, h2, h3, h5, readQ_eq hi (hn g rfl), picture]
  | seq r =>
    obtain ⟨h1, ⟨k, h2, h3⟩, h4⟩ := this
    simp [draw, h1, h2, h3, picture]
  | plan g l =>
    obtain ⟨h1, ⟨k, j, h2, h3, h5⟩, h4⟩ := this
    simp [draw, h1, h2, h3, h5, picture]

theorem step_inv {s : St α} {os : List (Op α)} (hi : Inv s (current os)) (o : Op α) (h : Avoids os s o) :
    ∃ s', step s o = some (s', expected (current os) s o) ∧ Inv s' (current (os ++ [o])) := by
  have hc : current (os ++ [o]) = after (current os) o := by simp [current]
  rw [hc]
  cases o with
  | setSg g => obtain ⟨s', e, h'⟩ := setSg_inv hi h g; exact ⟨s', by simp [step, e, expected], h'⟩
  | setConfig l => obtain ⟨s', e, h'⟩ := setConfig_inv hi l; exact ⟨s', by simp [step, e, expected], h'⟩
  | setSeq r => obtain ⟨s', e, h'⟩ := setSeq_inv hi h r; exact ⟨s', by simp [step, e, expected], h'⟩
  | setPlan g l => obtain ⟨s', e, h'⟩ := setPlan_inv hi h g l; exact ⟨s', by simp [step, e, expected], h'⟩
  | getConfig n =>
    have hn : s.nq = (current os).2.length := by
      rcases hi.q with ⟨-, e, e'⟩ | ⟨k, -, -, e⟩
      · rw [e, e']; rfl
      · exact e
    refine ⟨s, ?_, hi⟩
    simp only [step, hn, readQ_eq hi (min_le_right n _), expected, Option.map_some]
    rw [List.take_eq_take_min (i := n)]
  | stop => exact ⟨_, rfl, hi.shows, hi.q, hi.old, hi.frame, hi.cxs, hi.mps, hi.plans⟩
  | stopOnQuit b => exact ⟨_, rfl, hi.shows, hi.q, hi.old, hi.frame, hi.cxs, hi.mps, hi.plans⟩
  | isRunning => exact ⟨s, rfl, hi⟩
  | run =>
    simp only [step]
    split
    · exact ⟨_, rfl, hi.shows, hi.q, hi.old, fun u f c e => (by cases e), hi.cxs, hi.mps, hi.plans⟩
    · exact ⟨s, rfl, hi⟩
  | tick upd quit =>
    simp only [step, tick, expected]
    cases e : s.phase with
    | off => exact ⟨s, rfl, hi⟩
    | loop =>
      exact ⟨_, rfl, hi.shows, hi.q, hi.old, fun u f c e => (by cases e; exact ⟨rfl, rfl⟩), hi.cxs, hi.mps, hi.plans⟩
    | frame u f c =>
      obtain ⟨rfl, rfl⟩ := hi.frame u f c e
      simp only [draw_eq hi u h, Option.map_some]
      exact ⟨_, rfl, hi.shows, hi.q, hi.old, fun u f c e => (by simp at e; split_ifs at e), hi.cxs, hi.mps, hi.plans⟩
    | left =>
      exact ⟨_, rfl, hi.shows, hi.q, hi.old, fun u f c e => (by simp at e; split_ifs at e), hi.cxs, hi.mps, hi.plans⟩
    | ending => exact ⟨_, rfl, hi.shows, hi.q, hi.old, fun u f c e => (by cases e), hi.cxs, hi.mps, hi.plans⟩

theorem exec_inv (rest : List (Op α)) : ∀ {s : St α} {os : List (Op α)}, Inv s (current os) → Along Avoids os s rest →
    ∃ r, exec s rest = some r ∧ Inv r.1 (current (os ++ rest)) := by
  induction rest with
  | nil => intro s os hi _; exact ⟨_, rfl, by simpa using hi⟩
  | cons o rest ih =>
    intro s os hi h
    obtain ⟨s', e, hi'⟩ := step_inv hi o h.1
    obtain ⟨r, e', hi''⟩ := ih hi' (h.2 _ e)
    exact ⟨_, by rw [exec, e, Option.bind_some, e']; rfl, by simpa using hi''⟩

/-! ## C132 -/

/-- **C132** (partial: see `Avoids`). After every history no step fails, and every frame shows the graph or the
sequence last set, the graph at the configuration last set; and this is what `aa_rx_win_get_config` returns. -/
theorem C132_shows_partial (os : List (Op α)) (h : Along Avoids [] create os) :
    ∃ s obs, exec create os = some (s, obs) ∧ ∀ o, Avoids os s o →
      ∃ s', step s o = some (s', expected (current os) s o) := by
  obtain ⟨⟨s, obs⟩, e, hi⟩ := exec_inv os (os := []) inv_create h
  refine ⟨s, obs, e, fun o ho => ?_⟩
  obtain ⟨s', e', -⟩ := step_inv hi o ho
  exact ⟨s', e'⟩

/-- **C132 (release)** (partial: configurations are not released). After `aa_rx_win_destroy` no context and no plan of
the window is left in memory. -/
theorem C132_release_partial (os : List (Op α)) (h : Along Avoids [] create os) {s : St α} {obs : List (Obs α)}
    (e : exec create os = some (s, obs)) :
    ∃ m, destroy s = some m ∧ ∀ k b, m k = some b → ∃ l, b = .arr l := by
  obtain ⟨⟨s', obs'⟩, e', hi⟩ := exec_inv os (os := []) inv_create h
  rw [e] at e'
  cases e'
  change Inv s _ at hi
  obtain ⟨h', e', h1, -, h3⟩ := setDisplay_spec hi s rfl rfl (fun _ _ => rfl) .null none .null
  refine ⟨h', by rw [destroy, e']; rfl, fun k b hb => ?_⟩
  by_cases hk : k < s.next
  · exact h3 k b hk hb
  · rw [h1 k (by omega)] at hb
    have := hi.old k b hb
    omega

/-- the thread is in the loop. -/
def Open (s : St α) : Prop := s.phase = .loop ∨ InFrame s ∨ s.phase = .left

/-- **C132 (stopping)**. After `aa_rx_win_stop` the thread of the window leaves the loop with at most one more frame. -/
theorem C132_stop (s : St α) (h : s.stop = true) (hd : s.phase = .loop → ∀ u, ∃ o, draw s u s.display s.cx = some o)
    (hf : ∀ u f c, s.phase = .frame u f c → ∃ o, draw s u f c = some o) (ticks : List (Bool × Bool))
    (hl : 4 ≤ ticks.length) :
    ∃ r, exec s (ticks.map fun t => .tick t.1 t.2) = some r ∧ r.1.phase = .off ∧ r.2.length ≤ 1 := by
  have off : ∀ (ts : List (Bool × Bool)) {s : St α}, s.phase = .off →
      ∃ r, exec s (ts.map fun t => .tick t.1 t.2) = some r ∧ r.1.phase = .off ∧ r.2 = [] := by
    intro ts
    induction ts with
    | nil => intro s e; exact ⟨_, rfl, e, rfl⟩
    | cons t ts ih =>
      intro s e
      obtain ⟨r, e1, e2, e3⟩ := ih e
      exact ⟨(r.1, r.2), by simp [exec, step, tick, e, e1], e2, e3⟩
  have ending : ∀ (ts : List (Bool × Bool)) {s : St α}, s.phase = .ending → 1 ≤ ts.length →
      ∃ r, exec s (ts.map fun t => .tick t.1 t.2) = some r ∧ r.1.phase = .off ∧ r.2 = [] := by
    rintro (_ | ⟨t, ts⟩) s e hl
    · simp at hl
    · obtain ⟨r, e1, e2, e3⟩ := off ts (s := { s with phase := .off, running := false, stop := true }) rfl
      exact ⟨(r.1, r.2), by simp [exec, step, tick, e, e1], e2, e3⟩
  have left : ∀ (ts : List (Bool × Bool)) {s : St α}, s.phase = .left → s.stop = true → 2 ≤ ts.length →
      ∃ r, exec s (ts.map fun t => .tick t.1 t.2) = some r ∧ r.1.phase = .off ∧ r.2 = [] := by
    rintro (_ | ⟨t, ts⟩) s e hs hl
    · simp at hl
    · obtain ⟨r, e1, e2, e3⟩ := ending ts (s := { s with phase := .ending }) rfl (by simp at hl; omega)
      refine ⟨(r.1, r.2), ?_, e2, e3⟩
      have : step s (.tick t.1 t.2) = some ({ s with phase := .ending }, none) := by simp [step, tick, e, hs]
      simp [exec, this, e1]
  have frame : ∀ (ts : List (Bool × Bool)) {s : St α} {u f c}, s.phase = .frame u f c → s.stop = true →
      (∃ o, draw s u f c = some o) → 3 ≤ ts.length →
      ∃ r, exec s (ts.map fun t => .tick t.1 t.2) = some r ∧ r.1.phase = .off ∧ r.2.length ≤ 1 := by
    rintro (_ | ⟨t, ts⟩) s u f c e hs ⟨o, ho⟩ hl
    · simp at hl
    · obtain ⟨r, e1, e2, e3⟩ := left ts (s := { s with phase := .left }) rfl hs (by simp at hl; omega)
      refine ⟨(r.1, o :: r.2), ?_, e2, by simp [e3]⟩
      have : step s (.tick t.1 t.2) = some ({ s with phase := .left }, some o) := by simp [step, tick, e, hs, ho]
      simp [exec, this, e1]
  cases e : s.phase with
  | off => obtain ⟨r, e1, e2, e3⟩ := off ticks e; exact ⟨r, e1, e2, by simp [e3]⟩
  | ending => obtain ⟨r, e1, e2, e3⟩ := ending ticks e (by omega); exact ⟨r, e1, e2, by simp [e3]⟩
  | left => obtain ⟨r, e1, e2, e3⟩ := left ticks e h (by omega); exact ⟨r, e1, e2, by simp [e3]⟩
  | frame u f c => exact frame ticks e h (hf u f c e) (by omega)
  | loop =>
    rcases ticks with _ | ⟨t, ts⟩
    · simp at hl
    · obtain ⟨r, e1, e2, e3⟩ := frame ts (s := { s with phase := .frame t.1 s.display s.cx }) rfl h
        (by
          obtain ⟨o, ho⟩ := hd e t.1
          refine ⟨o, ho ▸ ?_⟩
          cases s.display <;> rcases s.cx with _ | k <;> rfl) (by simp at hl; omega)
      refine ⟨r, ?_, e2, e3⟩
      have : step s (.tick t.1 t.2) = some ({ s with phase := .frame t.1 s.display s.cx }, none) := by
        simp [step, tick, e]
      simp [exec, this, e1]

/-- **C132 (going on)**. A window that does not stop when the user closes it goes on until `aa_rx_win_stop` is called. -/
theorem C132_open (os : List (Op α)) (hs : ∀ o ∈ os, o ≠ .stop ∧ ∀ b, o ≠ .stopOnQuit b) : ∀ {s : St α},
    s.stop = false → s.stopOnQuit = false → Open s → ∀ {r : St α × List (Obs α)}, exec s os = some r → Open r.1 := by
  have sd : ∀ {s s' : St α} {f c d}, setDisplay s f c d = some s' →
      s'.stop = s.stop ∧ s'.stopOnQuit = s.stopOnQuit ∧ s'.phase = s.phase := by
    intro s s' f c d e
    have fr : ∀ {s s' : St α} {k}, free s k = some s' →
        s'.stop = s.stop ∧ s'.stopOnQuit = s.stopOnQuit ∧ s'.phase = s.phase := by
      intro s s' k e
      simp only [free] at e
      split at e <;> cases e
      exact ⟨rfl, rfl, rfl⟩
    simp only [setDisplay, Option.map_eq_some_iff] at e
    obtain ⟨t, e, rfl⟩ := e
    simp only [destroyCx] at e
    split at e
    · cases e; exact ⟨rfl, rfl, rfl⟩
    · have := fr e; exact this
    · cases e; exact ⟨rfl, rfl, rfl⟩
    · simp only [destroyPlan] at e
      split at e
      · simp only [Option.bind_eq_some_iff] at e
        obtain ⟨u, e1, e2⟩ := e
        obtain ⟨a1, a2, a3⟩ := fr e1
        obtain ⟨b1, b2, b3⟩ := fr e2
        exact ⟨b1.trans a1, b2.trans a2, b3.trans a3⟩
      · cases e
    · cases e
  induction os with
  | nil => intro s _ _ h r e; cases e; exact h
  | cons o os ih =>
    intro s h1 h2 h r e
    simp only [exec, Option.bind_eq_some_iff, Option.map_eq_some_iff] at e
    obtain ⟨⟨s', ob⟩, e1, t, e2, rfl⟩ := e
    have key : s'.stop = false ∧ s'.stopOnQuit = false ∧ Open s' := by
      have same : s'.stop = s.stop ∧ s'.stopOnQuit = s.stopOnQuit ∧ s'.phase = s.phase →
          s'.stop = false ∧ s'.stopOnQuit = false ∧ Open s' := by
        rintro ⟨a, b, c⟩
        refine ⟨a.trans h1, b.trans h2, ?_⟩
        simpa only [Open, InFrame, c] using h
      cases o with
      | setSg g =>
        simp only [step, setSg, Option.map_eq_some_iff] at e1
        obtain ⟨_, ⟨u, e, rfl⟩, e'⟩ := e1
        cases e'
        have := sd e
        exact same this
      | setConfig l =>
        simp only [step, setConfig, Option.map_eq_some_iff] at e1
        obtain ⟨_, ⟨u, e, rfl⟩, e'⟩ := e1
        cases e'
        refine same ?_
        simp only [freeQ] at e
        split at e
        · simp only [free] at e
          split at e <;> cases e
          exact ⟨rfl, rfl, rfl⟩
        · cases e; exact ⟨rfl, rfl, rfl⟩
      | getConfig n =>
        simp only [step, Option.map_eq_some_iff] at e1
        obtain ⟨_, _, e'⟩ := e1
        cases e'
        exact same ⟨rfl, rfl, rfl⟩
      | setSeq r =>
        simp only [step, setSeq, Option.map_eq_some_iff] at e1
        obtain ⟨_, e, e'⟩ := e1
        cases e'
        have := sd e
        exact same this
      | setPlan g l =>
        simp only [step, setPlan, Option.map_eq_some_iff] at e1
        obtain ⟨_, e, e'⟩ := e1
        cases e'
        have := sd e
        exact same this
      | stop => exact absurd rfl (hs _ (by simp)).1
      | stopOnQuit b => exact absurd rfl ((hs _ (by simp)).2 b)
      | isRunning => cases e1; exact same ⟨rfl, rfl, rfl⟩
      | run =>
        simp only [step] at e1
        split at e1 <;> cases e1
        · exact ⟨h1, h2, Or.inl rfl⟩
        · exact same ⟨rfl, rfl, rfl⟩
      | tick u q =>
        rcases h with e | ⟨u, f, c, e⟩ | e
        · simp only [step, tick, e] at e1
          cases e1
          exact ⟨h1, h2, Or.inr (Or.inl ⟨_, _, _, rfl⟩)⟩
        · simp only [step, tick, e, Option.map_eq_some_iff] at e1
          obtain ⟨_, _, e'⟩ := e1
          cases e'
          refine ⟨h1, h2, ?_⟩
          cases q
          · left; simp [h1]
          · right; right; simp
        · simp only [step, tick, e, h1, h2] at e1
          cases e1
          exact ⟨rfl, rfl, Or.inl rfl⟩
    have := ih (fun o ho => hs o (by simp [ho])) key.1 key.2.1 key.2.2 (r := t) e2
    exact this

/-- The window is shown, a graph set, moved, replaced by a plan and set again: the hypotheses hold. -/
example : ∃ s, exec (α := Nat) create [.run, .tick false false, .tick false false, .setSg ⟨7, 2⟩, .setConfig [3, 4],
    .tick false false, .tick false false, .setPlan ⟨7, 2⟩ [1, 2], .tick false false, .tick false false, .setSg ⟨8, 1⟩,
    .tick false false, .tick false false, .getConfig 5] =
    some (s, [.blank, .graph ⟨7, 2⟩ [3, 4], .plan ⟨7, 2⟩ [1, 2], .graph ⟨8, 1⟩ [0], .config [0]]) := ⟨_, rfl⟩

example : Along (α := Nat) Avoids [] create [.setSg ⟨7, 2⟩, .setConfig [3, 4], .run, .tick false false,
    .tick false false, .setSeq 1] := by
  refine ⟨?_, ?_⟩
  · rintro ⟨u, f, c, h⟩; cases h
  rintro _ ⟨⟩
  refine ⟨?_, ?_⟩
  · rintro ⟨u, f, c, h⟩; cases h
  rintro _ ⟨⟩
  refine ⟨trivial, ?_⟩
  rintro _ ⟨⟩
  refine ⟨?_, ?_⟩
  · rintro g ⟨⟩; decide
  rintro _ ⟨⟩
  refine ⟨?_, ?_⟩
  · rintro g ⟨⟩; decide
  rintro _ ⟨⟩
  refine ⟨?_, ?_⟩
  · rintro ⟨u, f, c, h⟩; cases h
  rintro _ ⟨⟩
  trivial

/-- A configuration that is too short is read past its end. -/
theorem C132_violates_short :
    exec (α := Nat) create [.setSg ⟨0, 2⟩, .setConfig [5], .run, .tick false false, .tick false false] = none := rfl

/-- A sequence set while a frame is drawn frees the context in use. -/
theorem C132_violates_race :
    exec (α := Nat) create [.setSg ⟨0, 2⟩, .run, .tick false false, .setSeq 1, .tick false false] = none := rfl

/-- The configuration is not released with the window, and that of the first graph not at all. -/
theorem C132_violates_leak : ∃ s m, exec (α := Nat) create [.setSg ⟨0, 2⟩, .setSg ⟨1, 1⟩] = some (s, []) ∧
    destroy s = some m ∧ s.q ≠ some 1 ∧ m 1 = some (.arr [0, 0]) ∧ m 3 = some (.arr [0]) :=
  ⟨_, _, rfl, rfl, by decide, rfl, rfl⟩

/-- `aa_rx_win_is_running` before the loop is run. -/
theorem C132_violates_is_running : ∃ s, exec (α := Nat) create [.isRunning] = some (s, [.running true]) ∧
    s.running = false := ⟨_, rfl, rfl⟩

/-- A window that was stopped cannot be run again: there is one frame. -/
theorem C132_violates_restart : ∃ s, exec (α := Nat) create [.run, .stop, .tick false false, .tick false false,
    .tick false false, .tick false false, .run, .tick false false, .tick false false, .tick false false,
    .tick false false] = some (s, [.blank, .blank]) ∧ s.running = false := ⟨_, rfl, rfl⟩

end Verif.WinShow
