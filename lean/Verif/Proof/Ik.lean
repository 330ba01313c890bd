import Verif.Model.Ik
import Verif.Proof.SgSub
import Verif.Prop.SgFk

/-! Lemmas about the forward kinematics of a chain. -/

namespace Verif.Ik

open Verif.Tf Verif.Sg

/-- The product of the relative transforms of frames after a given transform. -/
noncomputable def chainTf (g : Graph Body) (q : Nat → ℝ) (E : Qutr) (fs : List (Frame Body)) :
    Qutr := fs.foldl (fun E f => qutrMul E (tfRel f.kind f.body (confVal g q f))) E

theorem pathTf_eq (g : Graph Body) (q : Nat → ℝ) (fs : List (Frame Body)) :
    pathTf g q fs = chainTf g q qutrident fs := by
  unfold pathTf chainTf
  rw [List.foldl_map]
  rfl

theorem chainTf_append (g : Graph Body) (q : Nat → ℝ) (E : Qutr) (a b : List (Frame Body)) :
    chainTf g q E (a ++ b) = chainTf g q (chainTf g q E a) b := List.foldl_append ..

theorem tfRel_congr (g : Graph Body) {q q' : Nat → ℝ} {f : Frame Body}
    (h : f.IsJoint → confVal g q f = confVal g q' f) :
    tfRel f.kind f.body (confVal g q f) = tfRel f.kind f.body (confVal g q' f) := by
  by_cases hj : f.IsJoint
  · rw [h hj]
  · have : f.kind = Kind.fixed := by
      unfold Frame.IsJoint at hj
      simpa using hj
    rw [this]; rfl

theorem chainTf_congr (g : Graph Body) {q q' : Nat → ℝ} : ∀ (fs : List (Frame Body)) (E : Qutr),
    (∀ f ∈ fs, f.IsJoint → confVal g q f = confVal g q' f) →
    chainTf g q E fs = chainTf g q' E fs := by
  intro fs
  induction fs with
  | nil => intro E _; rfl
  | cons f fs ih =>
    intro E h
    simp only [chainTf, List.foldl_cons]
    rw [tfRel_congr g (h f (by simp))]
    exact ih _ (fun f' hf' => h f' (by simp [hf']))

theorem writes_congr {K : Type} (dst : Nat → Nat) (val : Nat → K) :
    ∀ (n i : Nat) (m m' : Nat → K) (k : Nat),
      (m k = m' k ∨ ∃ j, i ≤ j ∧ j < i + n ∧ k = dst j) →
      writes dst val n i m k = writes dst val n i m' k := by
  intro n
  induction n with
  | zero =>
    intro i m m' k h
    rcases h with h | ⟨j, h1, h2, -⟩
    · exact h
    · omega
  | succ n ih =>
    intro i m m' k h
    rw [writes, writes]
    apply ih
    by_cases hk : k = dst i
    · left; rw [hk, Function.update_self, Function.update_self]
    · rw [Function.update_of_ne hk, Function.update_of_ne hk]
      rcases h with h | ⟨j, h1, h2, h3⟩
      · exact Or.inl h
      · refine Or.inr ⟨j, ?_, by omega, h3⟩
        by_contra hj
        have : j = i := by omega
        exact hk (this ▸ h3)

section
variable {g : Graph Body} {st : NumSt Body} (h : Indexed g st)
include h

theorem id_lt {f : Frame Body} (hf : f ∈ g.map) : 0 ≤ frameId g f.name ∧
    (frameId g f.name).toNat < frameCount g := by
  obtain ⟨i, e, h1, rfl, h3⟩ := h.exists_entry hf
  rw [h3, h.count']
  exact ⟨by omega, by simpa using (List.getElem?_eq_some_iff.1 h1).1⟩

theorem id_inj {f f' : Frame Body} (hf : f ∈ g.map) (hf' : f' ∈ g.map)
    (he : (frameId g f.name).toNat = (frameId g f'.name).toNat) : f = f' := by
  have h1 := (id_lt h hf).1
  have h2 := (id_lt h hf').1
  exact eq_of_name h.nodup hf hf'
    (h.frameId_inj (List.mem_map_of_mem hf) (by omega))

theorem entryRel_frame {f : Frame Body} (hf : f ∈ g.map) (q : Nat → ℝ) :
    ∃ e, entry g (frameId g f.name) = some e ∧
      entryRel q e = some (tfRel f.kind f.body (confVal g q f)) := by
  obtain ⟨i, e, h1, rfl, h3⟩ := h.exists_entry hf
  refine ⟨e, by rw [h3, h.entry_nat, h1], ?_⟩
  exact entryRel_eq h (List.mem_of_getElem? h1) q

/-- The transform of the last frame of a path (the root's is the identity). -/
def BaseCol (g : Graph Body) (abs : List Qutr) (fr : List (Frame Body)) (E : Qutr) : Prop :=
  (fr = [] ∧ E = qutrident) ∨
    ∃ l f, fr = l ++ [f] ∧ abs[(frameId g f.name).toNat]? = some E

theorem fkSetRel_eq {f : Frame Body} {fr : List (Frame Body)} {E r : Qutr} {abs : List Qutr}
    {t : String} {rest : List (Frame Body)} (ht : IsPath (find g.map) t (fr ++ [f] ++ rest))
    (hE : BaseCol g abs fr E) :
    fkSetRel g abs (frameId g f.name) r =
      some (abs.set (frameId g f.name).toNat (qutrMul E r)) := by
  have hp := ht.prefix
  have hm := hp.mem f (by simp)
  obtain ⟨-, -, -, k3, -, -⟩ := h.frame_facts hm
  unfold fkSetRel
  rw [k3]
  rcases hp.name with ⟨h1, -⟩ | ⟨gs, f', h1, -, -, -, h3⟩
  · simp at h1
  obtain ⟨rfl, h5⟩ := List.append_inj' h1 rfl
  simp only [List.cons.injEq, and_true] at h5
  subst h5
  simp only
  rcases hE with ⟨rfl, rfl⟩ | ⟨l, f0, rfl, h6⟩
  · rcases h3.name with ⟨-, h7⟩ | ⟨_, _, h7, -⟩
    · rw [h7, show frameId g "" = frameRoot from rfl, if_pos rfl, qutr_one_mul]
    · simp at h7
  · have h8 := IsPath.prefix (rest := []) (by rw [List.append_nil]; exact h3)
    have h9 := h3.name_eq h8
    have hm0 := h3.mem f0 (by simp)
    obtain ⟨k1, k2, -, -, -, -⟩ := h.frame_facts hm0
    rw [h9, if_neg k1, parentCol, if_neg (by omega), h6]

theorem fkSubLoop_eq (q : Nat → ℝ) (frames : Nat → Int) (t : String) :
    ∀ (todo fr : List (Frame Body)) (i : Nat) (abs : List Qutr) (E : Qutr),
      IsPath (find g.map) t (fr ++ todo) →
      (∀ (k : Nat) (f : Frame Body), todo[k]? = some f → frames (i + k) = frameId g f.name) →
      abs.length = frameCount g → BaseCol g abs fr E →
      ∃ abs', fkSubLoop g q frames todo.length i abs = some abs' ∧ abs'.length = frameCount g ∧
        (∀ (k : Nat) (f : Frame Body), todo[k]? = some f →
          abs'[(frameId g f.name).toNat]? = some (chainTf g q E (todo.take (k + 1)))) ∧
        (∀ j, (∀ f ∈ todo, (frameId g f.name).toNat ≠ j) → abs'[j]? = abs[j]?) := by
  intro todo
  induction todo with
  | nil =>
    intro fr i abs E _ _ hl _
    exact ⟨abs, rfl, hl, by simp, by simp⟩
  | cons f todo ih =>
    intro fr i abs E ht hf hl hE
    have hsplit : fr ++ f :: todo = fr ++ [f] ++ todo := by simp
    rw [hsplit] at ht
    have hm := ht.mem f (by simp)
    have hi : frames i = frameId g f.name := hf 0 f rfl
    obtain ⟨e, e1, e2⟩ := entryRel_frame h hm q
    have hset := fkSetRel_eq h (r := tfRel f.kind f.body (confVal g q f)) ht hE
    set E' := qutrMul E (tfRel f.kind f.body (confVal g q f)) with hE'
    obtain ⟨hid0, hidlt⟩ := id_lt h hm
    have hcol : (abs.set (frameId g f.name).toNat E')[(frameId g f.name).toNat]? = some E' := by
      rw [List.getElem?_set_self (by omega)]
    obtain ⟨abs', a1, a2, a3, a4⟩ := ih (fr ++ [f]) (i + 1)
      (abs.set (frameId g f.name).toNat E') E' ht
      (fun k f' hk => by
        have := hf (k + 1) f' (by simpa using hk)
        rwa [show i + 1 + k = i + (k + 1) by omega])
      (by rw [List.length_set, hl]) (Or.inr ⟨fr, f, rfl, hcol⟩)
    -- the frame is not among the later ones
    have hnin : ∀ f' ∈ todo, (frameId g f'.name).toNat ≠ (frameId g f.name).toNat := by
      intro f' hf' he
      obtain rfl := id_inj h (ht.mem f' (by simp [hf'])) hm he
      obtain ⟨l1, l2, rfl⟩ := List.append_of_mem hf'
      have h1 := ht.prefix
      have h2 : fr ++ [f'] ++ (l1 ++ f' :: l2) = (fr ++ [f'] ++ l1) ++ [f'] ++ l2 := by simp
      rw [h2] at ht
      have h3 := ht.prefix
      have := congrArg List.length (h1.unique h3)
      simp at this
    refine ⟨abs', ?_, a2, ?_, ?_⟩
    · rw [List.length_cons, fkSubLoop, hi, e1]
      simp only [e2, hset, a1]
    · intro k f' hk
      cases k with
      | zero =>
        simp only [List.getElem?_cons_zero, Option.some.injEq] at hk
        subst hk
        rw [a4 _ hnin, hcol]
        simp [chainTf, hE']
      | succ k =>
        rw [List.getElem?_cons_succ] at hk
        rw [a3 k f' hk]
        simp [chainTf, hE']
    · intro j hj
      rw [a4 j (fun f' hf' => hj f' (by simp [hf'])),
        List.getElem?_set_ne (hj f (by simp))]

end

end Verif.Ik
