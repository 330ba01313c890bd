import Verif.Proof.SgIndex
import Verif.Model.SgKin
import Mathlib.Tactic.Ring

/-! Lemmas about the kinematics loops. -/

namespace Verif.Sg

open Verif.Tf

/-- Specification: `fs` are the frames from the root to the frame called `n`, in that order.  The
root is called `""` and the path to it is empty. -/
inductive IsPath {P : Type} (c : String → Option (Frame P)) : String → List (Frame P) → Prop
  | root : IsPath c "" []
  | step {n : String} {f : Frame P} {fs : List (Frame P)} : n ≠ "" → c n = some f →
      IsPath c f.parent fs → IsPath c n (fs ++ [f])

theorem IsPath.unique {P : Type} {c : String → Option (Frame P)} {n : String} {fs fs' : List (Frame P)}
    (h : IsPath c n fs) (h' : IsPath c n fs') : fs = fs' := by
  induction h generalizing fs' with
  | root =>
    cases h' with
    | root => rfl
    | step h _ _ => exact absurd rfl h
  | step h1 h2 _ ih =>
    cases h' with
    | root => exact absurd rfl h1
    | step _ h4 h5 =>
      rw [h2] at h4
      obtain rfl := Option.some.inj h4
      rw [ih h5]

theorem absLoop_append {α : Type} (rel : Entry Body → Option α) (mul : α → α → α)
    (es es' : List (Option (Entry Body))) (R A : List α) :
    absLoop rel mul (es ++ es') R A =
      (absLoop rel mul es R A).bind (fun p => absLoop rel mul es' p.1 p.2) := by
  induction es generalizing R A with
  | nil => rfl
  | cons e es ih =>
    cases e with
    | none => rfl
    | some e =>
      simp only [List.cons_append, absLoop]
      cases rel e with
      | none => rfl
      | some r =>
        simp only
        by_cases hg : e.frame.inGlobal = true
        · rw [if_pos hg, if_pos hg, ih]
        · rw [if_neg hg, if_neg hg]
          cases parentCol A e.parentId with
          | none => rfl
          | some p => simp only [ih]

/-- The loops compute, for every frame, the product along the path from the root. -/
theorem absLoop_path {α : Type} {g : Graph Body} {s : NumSt Body} (h : Indexed g s)
    (rel : Entry Body → Option α) (ρ : Frame Body → α) (mul : α → α → α) (one : α)
    (hrel : ∀ e ∈ s.entries, rel e = some (ρ e.frame)) (hone : ∀ a, mul one a = a) (n : Nat) :
    ∃ R A, absLoop rel mul (g.frames.take n) [] [] = some (R, A) ∧
      R.length = min n s.entries.length ∧ A.length = min n s.entries.length ∧
      ∀ (i : Nat) (e : Entry Body), i < n → s.entries[i]? = some e →
        R[i]? = some (ρ e.frame) ∧
        ∃ fs, IsPath (find g.map) e.frame.name fs ∧ A[i]? = some ((fs.map ρ).foldl mul one) := by
  induction n with
  | zero => exact ⟨[], [], rfl, by simp, by simp, fun i e hi => by omega⟩
  | succ n ih =>
    obtain ⟨R, A, h1, h2, h3, h4⟩ := ih
    by_cases hn : n < s.entries.length
    · obtain ⟨e, he⟩ : ∃ e, s.entries[n]? = some e := ⟨_, List.getElem?_eq_getElem hn⟩
      have htake : g.frames.take (n + 1) = g.frames.take n ++ [some e] := by
        rw [List.take_add_one, h.frames, List.getElem?_map, he]
        rfl
      have hre := hrel e (List.mem_of_getElem? he)
      have hfm := (h.frameId_entry he).2
      have hlenR : R.length = n := by omega
      have hlenA : A.length = n := by omega
      -- the new column
      obtain ⟨a, fs, hp, ha, hloop⟩ : ∃ a fs, IsPath (find g.map) e.frame.name fs ∧
          a = (fs.map ρ).foldl mul one ∧
          absLoop rel mul [some e] R A = some (R ++ [ρ e.frame], A ++ [a]) := by
        rcases h.inv.parent n e he with ⟨hg, -⟩ | ⟨hg, j, hj, hjn, hje⟩
        · refine ⟨ρ e.frame, [e.frame], ?_, by simp [hone], ?_⟩
          · exact IsPath.step (fs := []) (h.ne _ hfm) (find_eq h.nodup hfm) (hg ▸ IsPath.root)
          · have : e.frame.inGlobal = true := by simp [Frame.inGlobal, hg]
            simp only [absLoop, hre, if_pos this]
        · cases hej : s.entries[j]? with
          | none => rw [hej] at hjn; simp at hjn
          | some ej =>
            rw [hej] at hjn
            simp only [Option.map_some, Option.some.injEq] at hjn
            obtain ⟨-, fs, hp, hA⟩ := h4 j ej hj hej
            refine ⟨_, fs ++ [e.frame], IsPath.step (h.ne _ hfm) (find_eq h.nodup hfm) (hjn ▸ hp),
              rfl, ?_⟩
            have : ¬ e.frame.inGlobal = true := by simp [Frame.inGlobal, hg]
            have hcol : parentCol A e.parentId = some ((fs.map ρ).foldl mul one) := by
              unfold parentCol
              rw [hje, if_neg (by omega), Int.toNat_natCast, hA]
            simp only [absLoop, hre, if_neg this, hcol, List.map_append, List.foldl_append,
              List.map_cons, List.map_nil, List.foldl_cons, List.foldl_nil]
      refine ⟨R ++ [ρ e.frame], A ++ [a], ?_, ?_, ?_, fun i x hi hx => ?_⟩
      · rw [htake, absLoop_append, h1, Option.bind_some, hloop]
      · simp only [List.length_append, List.length_singleton]; omega
      · simp only [List.length_append, List.length_singleton]; omega
      · by_cases hin : i < n
        · obtain ⟨b1, fs', b2, b3⟩ := h4 i x hin hx
          exact ⟨by rw [List.getElem?_append_left (by omega)]; exact b1, fs', b2,
            by rw [List.getElem?_append_left (by omega)]; exact b3⟩
        · have : i = n := by omega
          subst this
          rw [he] at hx
          obtain rfl := Option.some.inj hx
          refine ⟨?_, fs, hp, ?_⟩
          · rw [List.getElem?_append_right (by omega), hlenR]; simp
          · rw [List.getElem?_append_right (by omega), hlenA, ha]; simp
    · have htake : g.frames.take (n + 1) = g.frames.take n := by
        rw [List.take_of_length_le, List.take_of_length_le] <;>
          rw [h.frames, List.length_map] <;> omega
      refine ⟨R, A, by rw [htake, h1], by omega, by omega, fun i x hi hx => ?_⟩
      have := (List.getElem?_eq_some_iff.1 hx).1
      exact h4 i x (by omega) hx

theorem qutr_one_mul (E : Qutr) : qutrMul qutrident E = E := by
  rcases E with ⟨⟨a, b, c, d⟩, ⟨x, y, z⟩⟩
  simp [qutrMul, qutrident, qmul, qident, qutrTf]

/-- The value of the configuration of a frame. -/
def confVal {P : Type} (g : Graph P) (q : Nat → ℝ) (f : Frame P) : ℝ :=
  q (configId g f.config).toNat

theorem jointVar_eq {g : Graph Body} {s : NumSt Body} (h : Indexed g s) {e : Entry Body}
    (he : e ∈ s.entries) (q : Nat → ℝ) :
    ∃ x, jointVar e q = some x ∧ (e.frame.IsJoint → x = confVal g q e.frame) := by
  obtain ⟨i, hi⟩ := List.mem_iff_getElem?.1 he
  unfold jointVar
  cases hk : e.frame.kind with
  | fixed => exact ⟨0, rfl, fun hj => absurd hk hj⟩
  | revolute =>
    obtain ⟨k, h1, -, -, h4⟩ := h.frameConfig_entry hi (by rw [Frame.IsJoint, hk]; simp)
    exact ⟨q k, by rw [h1]; rfl, fun _ => by rw [confVal, h4, Int.toNat_natCast]⟩
  | prismatic =>
    obtain ⟨k, h1, -, -, h4⟩ := h.frameConfig_entry hi (by rw [Frame.IsJoint, hk]; simp)
    exact ⟨q k, by rw [h1]; rfl, fun _ => by rw [confVal, h4, Int.toNat_natCast]⟩

theorem entryRel_eq {g : Graph Body} {s : NumSt Body} (h : Indexed g s) {e : Entry Body}
    (he : e ∈ s.entries) (q : Nat → ℝ) :
    entryRel q e = some (tfRel e.frame.kind e.frame.body (confVal g q e.frame)) := by
  obtain ⟨x, h1, h2⟩ := jointVar_eq h he q
  unfold entryRel
  rw [h1, Option.map_some]
  cases hk : e.frame.kind with
  | fixed => rfl
  | revolute => rw [h2 (by rw [Frame.IsJoint, hk]; simp)]
  | prismatic => rw [h2 (by rw [Frame.IsJoint, hk]; simp)]

theorem fkLoop_eq {q : Nat → ℝ} :
    ∀ (es : List (Option (Entry Body))) (R A : List Qutr),
      (∀ e, some e ∈ es → (e.parentId = frameRoot ↔ e.frame.inGlobal = true)) →
      fkLoop q es A = (absLoop (entryRel q) qutrMul es R A).map (·.2) := by
  intro es
  induction es with
  | nil => intro R A _; rfl
  | cons e es ih =>
    intro R A h
    have h' : ∀ e, some e ∈ es → (e.parentId = frameRoot ↔ e.frame.inGlobal = true) :=
      fun e he => h e (by simp [he])
    cases e with
    | none => rfl
    | some e =>
      have hh := h e (by simp)
      simp only [fkLoop, absLoop]
      cases entryRel q e with
      | none => rfl
      | some r =>
        simp only
        by_cases hg : e.frame.inGlobal = true
        · rw [if_pos (hh.2 hg), if_pos hg, ih (R ++ [r]) _ h']
        · rw [if_neg (fun h => hg (hh.1 h)), if_neg hg]
          cases parentCol A e.parentId with
          | none => rfl
          | some p => simp only [ih (R ++ [r]) _ h']

theorem Indexed.root_iff {g : Graph Body} {s : NumSt Body} (h : Indexed g s) (e : Entry Body)
    (he : some e ∈ g.frames) : e.parentId = frameRoot ↔ e.frame.inGlobal = true := by
  rw [h.frames] at he
  obtain ⟨e', he', hee⟩ := List.mem_map.1 he
  obtain rfl := Option.some.inj hee
  obtain ⟨i, hi⟩ := List.mem_iff_getElem?.1 he'
  rcases h.inv.parent i e' hi with ⟨h1, h2⟩ | ⟨h1, j, -, -, h2⟩
  · simp [h1, h2, Frame.inGlobal]
  · simp only [h2, Frame.inGlobal, h1, decide_false, Bool.false_eq_true, iff_false]
    unfold frameRoot; omega

end Verif.Sg
