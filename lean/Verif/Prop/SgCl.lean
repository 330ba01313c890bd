import Verif.Proof.SgCl

/-!
# C56: collision sets are symmetric sets of frame pairs

The specification is a map from set names to a size and a set of unordered pairs (`Sym2`).
-/

namespace Verif.Sg

/-- Specification: the sets of unordered pairs, with the number of frames. -/
abbrev PairStore := Nat → Option (Nat × (Sym2 Nat → Bool))

/-- Specification of the calls: merge and fill are unions, clear empties. -/
def specStep (st : PairStore) : ClOp → PairStore
  | ClOp.create h n => Function.update st h (some (n, fun _ => false))
  | ClOp.destroy h => Function.update st h none
  | ClOp.set h i j b => Function.update st h
      ((st h).map (fun x => (x.1, Function.update x.2 s(i.toNat, j.toNat) b)))
  | ClOp.fill d s => Function.update st d
      ((st d).bind (fun a => (st s).map (fun b => (a.1, fun p => a.2 p || b.2 p))))
  | ClOp.merge d s => Function.update st d
      ((st d).bind (fun a => (st s).map (fun b => (a.1, fun p => a.2 p || b.2 p))))
  | ClOp.clear h => Function.update st h ((st h).map (fun x => (x.1, fun _ => false)))

/-- Correct use: the sets exist, the frames are in range, sets that are combined have the same
size. -/
def Usable (st : PairStore) : ClOp → Prop
  | ClOp.create _ _ => True
  | ClOp.destroy h => ∃ x, st h = some x
  | ClOp.set h i j _ => ∃ x, st h = some x ∧ 0 ≤ i ∧ i < x.1 ∧ 0 ≤ j ∧ j < x.1
  | ClOp.fill d s => ∃ a b, st d = some a ∧ st s = some b ∧ a.1 = b.1
  | ClOp.merge d s => ∃ a b, st d = some a ∧ st s = some b ∧ a.1 = b.1
  | ClOp.clear h => ∃ x, st h = some x

/-- What the code does not get right: a fill from the set itself or whose destination has a pair that the
source has not,
and a merge from a set with a pair `{i, i}`. -/
def Avoids (st : PairStore) : ClOp → Prop
  | ClOp.fill d s => d ≠ s ∧ ∀ a b, st d = some a → st s = some b → ∀ p, a.2 p = true → b.2 p = true
  | ClOp.merge _ s => ∀ b, st s = some b → ∀ i, b.2 s(i, i) = false
  | _ => True

/-- Every call of the history satisfies a condition, in the state of the specification in which it
is made. -/
def Along (P : PairStore → ClOp → Prop) : PairStore → List ClOp → Prop
  | _, [] => True
  | st, o :: os => P st o ∧ Along P (specStep st o) os

/-- The model's store represents the specification's. -/
def StoreRep (m : ClStore) (st : PairStore) : Prop :=
  ∀ h, (st h = none → m h = none) ∧
    ∀ x, st h = some x → ∃ s, m h = some s ∧ Rep s x.1 x.2

theorem storeRep_update {m : ClStore} {st : PairStore} (hr : StoreRep m st) (h : Nat) {s : ClSet}
    {x : Nat × (Sym2 Nat → Bool)} (hs : Rep s x.1 x.2) :
    StoreRep (Function.update m h (some s)) (Function.update st h (some x)) := by
  intro k
  by_cases hk : k = h
  · subst hk
    simp only [Function.update_self]
    exact ⟨fun h => by simp at h, fun y hy => ⟨s, rfl, by cases hy; exact hs⟩⟩
  · simp only [Function.update_of_ne hk]
    exact hr k

theorem Rep.congr {s : ClSet} {n : Nat} {S T : Sym2 Nat → Bool} (h : Rep s n S)
    (he : ∀ p, S p = T p) : Rep s n T := by rwa [← funext he]

theorem step_rep {m : ClStore} {st : PairStore} (hr : StoreRep m st) (o : ClOp)
    (hu : Usable st o) (ha : Avoids st o) :
    ∃ m', clStep m o = some m' ∧ StoreRep m' (specStep st o) := by
  cases o with
  | create h n => exact ⟨_, rfl, storeRep_update hr h (clCreate_rep n)⟩
  | destroy h =>
    obtain ⟨x, hx⟩ := hu
    obtain ⟨s, e, -⟩ := (hr h).2 x hx
    refine ⟨_, by simp only [clStep, e]; rfl, fun k => ?_⟩
    by_cases hk : k = h
    · subst hk; simp [specStep]
    · simp only [specStep, Function.update_of_ne hk]; exact hr k
  | set h i j b =>
    obtain ⟨x, hx, i1, i2, j1, j2⟩ := hu
    obtain ⟨s, e, hs⟩ := (hr h).2 x hx
    obtain ⟨s', e', hs'⟩ := clSet_eq hs (i := i.toNat) (j := j.toNat) b (by omega) (by omega)
    rw [Int.toNat_of_nonneg i1, Int.toNat_of_nonneg j1] at e'
    refine ⟨_, by simp only [clStep, e, Option.bind_some, e']; rfl, ?_⟩
    simp only [specStep, hx, Option.map_some]
    exact storeRep_update hr h hs'
  | fill d s =>
    obtain ⟨a, b, h1, h2, h3⟩ := hu
    obtain ⟨sa, e1, r1⟩ := (hr d).2 a h1
    obtain ⟨sb, e2, r2⟩ := (hr s).2 b h2
    refine ⟨_, by simp only [clStep, e1, e2, if_neg ha.1]; rfl, ?_⟩
    simp only [specStep, h1, h2, Option.bind_some, Option.map_some]
    refine storeRep_update hr d ?_
    rw [← h3] at r2
    refine (clFill_rep r1 r2).congr (fun p => ?_)
    have := ha.2 a b h1 h2 p
    cases hp : a.2 p with
    | true => simp [this hp]
    | false =>
      show b.2 p = (a.2 p || b.2 p)
      rw [hp, Bool.false_or]
  | merge d s =>
    obtain ⟨a, b, h1, h2, h3⟩ := hu
    obtain ⟨sa, e1, r1⟩ := (hr d).2 a h1
    obtain ⟨sb, e2, r2⟩ := (hr s).2 b h2
    rw [← h3] at r2
    obtain ⟨sc, e3, r3⟩ := clMerge_rep r1 r2
    refine ⟨_, by simp only [clStep, e1, e2, Option.bind_some, e3]; rfl, ?_⟩
    simp only [specStep, h1, h2, Option.bind_some, Option.map_some]
    refine storeRep_update hr d (r3.congr (fun p => ?_))
    by_cases hp : p.IsDiag
    · induction p with
      | _ i j =>
        simp only [Sym2.mk_isDiag_iff] at hp
        subst hp
        show (_ || _) = (a.2 s(i, i) || b.2 s(i, i))
        rw [ha b h2 i, Bool.and_false]
    · simp [hp]
  | clear h =>
    obtain ⟨x, hx⟩ := hu
    obtain ⟨s, e, hs⟩ := (hr h).2 x hx
    refine ⟨_, by simp only [clStep, e, Option.bind_some, clClear_eq hs]; rfl, ?_⟩
    simp only [specStep, hx, Option.map_some]
    exact storeRep_update hr h (clCreate_rep x.1)

theorem run_rep : ∀ (os : List ClOp) (m : ClStore) (st : PairStore), StoreRep m st →
    Along Usable st os → Along Avoids st os →
    ∃ m', clRun m os = some m' ∧ StoreRep m' (os.foldl specStep st) := by
  intro os
  induction os with
  | nil => intro m st hr _ _; exact ⟨m, rfl, hr⟩
  | cons o os ih =>
    intro m st hr hu ha
    obtain ⟨m1, e1, r1⟩ := step_rep hr o hu.1 ha.1
    obtain ⟨m2, e2, r2⟩ := ih m1 _ r1 hu.2 ha.2
    exact ⟨m2, by simp only [clRun, e1, Option.bind_some]; exact e2, r2⟩

/-- No sets. -/
def noSets : PairStore := fun _ => none

/-- C56 for all histories that avoid the two defects: every call is defined, and `get` of any two
frames in range, in either order, tells whether the pair is in the set of the specification. -/
theorem C56_history_partial (os : List ClOp) (hu : Along Usable noSets os)
    (ha : Along Avoids noSets os) :
    ∃ m, clRun (fun _ => none) os = some m ∧ ∀ h x, os.foldl specStep noSets h = some x →
      ∃ s, m h = some s ∧ ∀ i j : Nat, i < x.1 → j < x.1 →
        clGet s i j = some (x.2 s(i, j)) ∧ clGet s j i = some (x.2 s(i, j)) := by
  obtain ⟨m, e, r⟩ := run_rep os (fun _ => none) noSets
    (fun h => ⟨fun _ => rfl, fun x hx => by simp [noSets] at hx⟩) hu ha
  refine ⟨m, e, fun h x hx => ?_⟩
  obtain ⟨s, hs, hrep⟩ := (r h).2 x hx
  refine ⟨s, hs, fun i j hi hj => ⟨?_, ?_⟩⟩
  · rw [clGet_eq hrep, if_pos ⟨hi, hj⟩]
  · rw [clGet_eq hrep, if_pos ⟨hj, hi⟩, Sym2.eq_swap]

/-- Whether the last call on the unordered pair set it. -/
def lastSet (p : Sym2 Nat) : List (Nat × Nat × Bool) → Bool
  | [] => false
  | (i, j, b) :: l => if l.any (fun x => s(x.1, x.2.1) = p) then lastSet p l
    else if s(i, j) = p then b else false

/-- Calls of `aa_rx_cl_set_set` one after the other. -/
def setAll : List (Nat × Nat × Bool) → ClSet → Option ClSet
  | [], s => some s
  | (i, j, b) :: l, s => (clSet s i j b).bind (setAll l)

/-- C56: after any calls of `set` on a new set of any size, `get` is true iff the last call on the
unordered pair set it; the pair may be given in either order. -/
theorem C56_last_set (n : Nat) (l : List (Nat × Nat × Bool))
    (hl : ∀ x ∈ l, x.1 < n ∧ x.2.1 < n) :
    ∃ s, setAll l (clCreate n) = some s ∧ ∀ i j : Nat, i < n → j < n →
      clGet s i j = some (lastSet s(i, j) l) ∧ clGet s j i = clGet s i j := by
  have key : ∀ (l : List (Nat × Nat × Bool)) (s : ClSet) (S : Sym2 Nat → Bool), Rep s n S →
      (∀ x ∈ l, x.1 < n ∧ x.2.1 < n) → ∃ s', setAll l s = some s' ∧
        Rep s' n (fun p => if l.any (fun x => s(x.1, x.2.1) = p) then lastSet p l else S p) := by
    intro l
    induction l with
    | nil => intro s S hs _; exact ⟨s, rfl, by simpa using hs⟩
    | cons x l ih =>
      obtain ⟨i, j, b⟩ := x
      intro s S hs hl
      obtain ⟨s1, e1, r1⟩ := clSet_eq hs b (hl (i, j, b) (by simp)).1 (hl (i, j, b) (by simp)).2
      obtain ⟨s2, e2, r2⟩ := ih s1 _ r1 (fun y hy => hl y (by simp [hy]))
      refine ⟨s2, by simp only [setAll, e1, Option.bind_some]; exact e2, r2.congr (fun p => ?_)⟩
      simp only [List.any_cons, lastSet]
      by_cases ha : l.any (fun x => s(x.1, x.2.1) = p) = true
      · simp [ha]
      · rw [if_neg ha, if_neg ha]
        by_cases hp : s(i, j) = p
        · subst hp; simp
        · rw [Function.update_of_ne (Ne.symm hp)]
          simp only [hp, ha]
          simp
  obtain ⟨s, e, r⟩ := key l _ _ (clCreate_rep n) hl
  refine ⟨s, e, fun i j hi hj => ?_⟩
  have hno : ∀ (l : List (Nat × Nat × Bool)) (p : Sym2 Nat),
      ¬ l.any (fun x => s(x.1, x.2.1) = p) = true → lastSet p l = false := by
    intro l p h
    cases l with
    | nil => rfl
    | cons x l =>
      obtain ⟨a, c, b⟩ := x
      simp only [List.any_cons, Bool.or_eq_true, not_or] at h
      simp only [lastSet]
      rw [if_neg h.2, if_neg (by simpa using h.1)]
  refine ⟨?_, by
    rw [clGet_eq r j i, clGet_eq r i j, if_pos (And.intro hj hi), if_pos (And.intro hi hj),
      Sym2.eq_swap (a := j) (b := i)]⟩
  rw [clGet_eq r, if_pos (And.intro hi hj)]
  by_cases ha : l.any (fun x => s(x.1, x.2.1) = s(i, j)) = true
  · rw [if_pos ha]
  · rw [if_neg ha, hno l _ ha]

/-- C56: whatever was done before, merging is the union off the diagonal, the fill is a copy, clear
empties, and out of range frames are rejected. -/
theorem C56_ops (d s : ClSet) (n : Nat) (D S : Sym2 Nat → Bool) (hd : Rep d n D) (hs : Rep s n S) :
    (∃ d', clMerge d s = some d' ∧ ∀ i j : Nat, i < n → j < n → i ≠ j →
      clGet d' i j = some (D s(i, j) || S s(i, j))) ∧
    (∀ i j : Nat, i < n → j < n → clGet (clFill d s) i j = clGet s i j) ∧
    (∃ d', clClear d = some d' ∧ ∀ i j : Nat, i < n → j < n → clGet d' i j = some false) ∧
    (∀ i j : Nat, ¬ (i < n ∧ j < n) → clGet d i j = none) := by
  refine ⟨?_, fun i j hi hj => ?_, ?_, fun i j hij => ?_⟩
  · obtain ⟨d', e, r⟩ := clMerge_rep hd hs
    refine ⟨d', e, fun i j hi hj hij => ?_⟩
    rw [clGet_eq r, if_pos (And.intro hi hj)]
    simp [hij]
  · rw [clGet_eq (clFill_rep hd hs), clGet_eq hs]
  · exact ⟨_, clClear_eq hd, fun i j hi hj => by rw [clGet_eq (clCreate_rep n), if_pos ⟨hi, hj⟩]⟩
  · rw [clGet_eq hd, if_neg hij]

/-- C56 for `aa_rx_sg_cl_set_copy` into a set that holds no other pair: the copy has exactly the
pairs of the scene graph's list. -/
theorem C56_copy_partial (n : Nat) (l : List (Nat × Nat)) (hl : ∀ x ∈ l, x.1 < n ∧ x.2 < n)
    (d : ClSet) (D : Sym2 Nat → Bool) (hd : Rep d n D)
    (hsub : ∀ p, D p = true → ∃ x ∈ l, s(x.1, x.2) = p) :
    ∃ s, clSetCopy (l.map (fun x => ((x.1 : Int), (x.2 : Int)))) d = some s ∧
      Rep s n (fun p => l.any (fun x => s(x.1, x.2) = p)) := by
  have key : ∀ (l : List (Nat × Nat)) (s : ClSet) (S : Sym2 Nat → Bool), Rep s n S →
      (∀ x ∈ l, x.1 < n ∧ x.2 < n) →
      ∃ s', clSetCopy (l.map (fun x => ((x.1 : Int), (x.2 : Int)))) s = some s' ∧
        Rep s' n (fun p => S p || l.any (fun x => s(x.1, x.2) = p)) := by
    intro l
    induction l with
    | nil => intro s S hs _; exact ⟨s, rfl, by simpa using hs⟩
    | cons x l ih =>
      intro s S hs hl
      obtain ⟨s1, e1, r1⟩ := clSet_eq hs true (hl x (by simp)).1 (hl x (by simp)).2
      obtain ⟨s2, e2, r2⟩ := ih s1 _ r1 (fun y hy => hl y (by simp [hy]))
      refine ⟨s2, by simp only [List.map_cons, clSetCopy, e1, Option.bind_some]; exact e2,
        r2.congr (fun p => ?_)⟩
      by_cases hp : p = s(x.1, x.2)
      · subst hp; simp
      · rw [Function.update_of_ne hp]
        simp [Ne.symm hp]
  obtain ⟨s, e, r⟩ := key l d D hd hl
  refine ⟨s, e, r.congr (fun p => ?_)⟩
  cases hp : D p with
  | false => simp
  | true =>
    obtain ⟨x, h1, h2⟩ := hsub p hp
    symm
    simp only [Bool.true_or, List.any_eq_true]
    exact ⟨x, h1, by simpa using h2⟩

/-! ## Concrete cases and disagreements -/

/-- A history with every call that satisfies the hypotheses of `C56_history_partial`. -/
def clHist : List ClOp :=
  [ClOp.create 0 3, ClOp.create 1 3, ClOp.set 0 2 0 true, ClOp.set 1 1 2 true, ClOp.merge 0 1,
   ClOp.create 2 3, ClOp.fill 2 0, ClOp.set 2 0 2 false, ClOp.clear 1, ClOp.destroy 1]

/-- The hypotheses hold (each step is checked in the specification's state) and the sets are as
expected. -/
example : Along Usable noSets clHist := by
  simp [clHist, Along, Usable, specStep, Function.update]

example : Along Avoids noSets clHist := by
  simp [clHist, Along, Avoids, specStep, Function.update]
  intro i
  omega

example : ((clRun (fun _ => none) clHist).map (fun m =>
    ((m 0).map (fun s => [clGet s 0 2, clGet s 2 1, clGet s 1 0]),
     (m 2).map (fun s => [clGet s 0 2, clGet s 2 1, clGet s 1 0]), (m 1).isNone))) =
    some (some [some true, some true, some false], some [some false, some true, some false], true) :=
  by decide +kernel

/-- C56 fails for fill: the pair of the destination is lost ("False entries in src have no effect"
in the header). -/
theorem C56_violates_fill :
    ((clSet (clCreate 2) 1 0 true).map (fun d => (clGet d 1 0, clGet (clFill d (clCreate 2)) 1 0))) =
      some (some true, some false) := by decide +kernel

/-- C56 fails for fill from the set itself, whatever the set: the vector is assigned from its own iterators. -/
theorem C56_violates_fill_self (st : ClStore) (h : Nat) : clStep st (ClOp.fill h h) = none := if_pos rfl

/-- C56 fails for fill from a set of another size: the pair {2, 1} of the source shows up as the
pair {3, 0} of the destination, which has no frame 3. -/
theorem C56_violates_fill_size :
    ((clSet (clCreate 4) 2 1 true).map (fun s => (clGet s 2 1,
      clGet (clFill (clCreate 3) s) 2 1, clGet (clFill (clCreate 3) s) 3 0))) =
      some (some true, some false, some true) := by decide +kernel

/-- C56 fails for merge on the diagonal: {0, 0} is set in the source and not in the union. -/
theorem C56_violates_merge :
    ((clSet (clCreate 2) 0 0 true).bind (fun s => (clMerge (clCreate 2) s).map (fun d =>
      (clGet s 0 0, clGet d 0 0)))) = some (some true, some false) := by decide +kernel

/-- C56 fails for the copy of the scene graph's allowed pairs into a set that is not empty: the old
pair stays. -/
theorem C56_violates_copy :
    ((clSet (clCreate 3) 2 0 true).bind (fun d => (clSetCopy [(0, 1)] d).map (fun s =>
      (clGet s 0 1, clGet s 2 0)))) = some (some true, some true) := by decide +kernel

end Verif.Sg
