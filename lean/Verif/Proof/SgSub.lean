import Verif.Proof.SgKin
import Verif.Model.SgSub

/-! Lemmas about chains. -/

namespace Verif.Sg

variable {P : Type}

theorem IsPath.name {m : List (Frame P)} {n : String} {fs : List (Frame P)}
    (h : IsPath (find m) n fs) : (fs = [] ∧ n = "") ∨
      ∃ gs f, fs = gs ++ [f] ∧ f.name = n ∧ n ≠ "" ∧ f ∈ m ∧ IsPath (find m) f.parent gs := by
  cases h with
  | root => exact Or.inl ⟨rfl, rfl⟩
  | step h1 h2 h3 =>
    exact Or.inr ⟨_, _, rfl, (find_some h2).2, h1, (find_some h2).1, h3⟩

theorem IsPath.name_eq {m : List (Frame P)} {n n' : String} {fs : List (Frame P)}
    (h : IsPath (find m) n fs) (h' : IsPath (find m) n' fs) : n = n' := by
  rcases h.name with ⟨h1, h2⟩ | ⟨gs, f, h1, h2, -⟩ <;>
    rcases h'.name with ⟨h3, h4⟩ | ⟨gs', f', h3, h4, -⟩
  · rw [h2, h4]
  · rw [h1] at h3; simp at h3
  · rw [h1] at h3; simp at h3
  · rw [h1] at h3
    have := (List.append_inj' h3 rfl).2
    simp only [List.cons.injEq, and_true] at this
    rw [← h2, this, h4]

/-- The frames of a path are in the graph. -/
theorem IsPath.mem {m : List (Frame P)} {n : String} {fs : List (Frame P)}
    (h : IsPath (find m) n fs) : ∀ f ∈ fs, f ∈ m := by
  induction h with
  | root => simp
  | step _ h2 _ ih =>
    intro f hf
    rcases List.mem_append.1 hf with hf | hf
    · exact ih f hf
    · rw [List.mem_singleton.1 hf]; exact (find_some h2).1

/-- Every prefix of a path is the path of its last frame. -/
theorem IsPath.prefix {m : List (Frame P)} {fs : List (Frame P)} {f : Frame P} :
    ∀ {rest : List (Frame P)} {n : String}, IsPath (find m) n (fs ++ [f] ++ rest) →
      IsPath (find m) f.name (fs ++ [f]) := by
  intro rest
  induction rest using List.reverseRecOn with
  | nil =>
    intro n h
    rw [List.append_nil] at h
    rcases h.name with ⟨h1, -⟩ | ⟨gs, f', h1, h2, -⟩
    · simp at h1
    · have := (List.append_inj' h1 rfl).2
      simp only [List.cons.injEq, and_true] at this
      rw [this, h2, ← this]; exact h
  | append_singleton rest x ih =>
    intro n h
    rcases h.name with ⟨h1, -⟩ | ⟨gs, f', h1, h2, -, -, h3⟩
    · simp at h1
    · rw [← List.append_assoc] at h1
      have := (List.append_inj' h1 rfl).1
      rw [← this] at h3
      exact ih h3

section
variable {g : Graph P} {s : NumSt P} (h : Indexed g s)
include h

theorem Indexed.frameId_inj {n n' : String} (hn : n ∈ names g.map)
    (he : frameId g n = frameId g n') : n = n' := by
  obtain ⟨f, hf, rfl⟩ := List.mem_map.1 hn
  obtain ⟨i, e, h1, rfl, h3⟩ := h.exists_entry hf
  rw [h3] at he
  by_cases hn' : n' ∈ names g.map
  · obtain ⟨f', hf', rfl⟩ := List.mem_map.1 hn'
    obtain ⟨i', e', h1', rfl, h3'⟩ := h.exists_entry hf'
    rw [h3'] at he
    have : i = i' := by omega
    subst this
    rw [h1] at h1'
    rw [Option.some.inj h1']
  · unfold frameId at he
    split_ifs at he
    · unfold frameRoot at he; omega
    · rw [find_none.2 hn'] at he
      simp only [frameNone] at he
      omega

theorem Indexed.frame_facts {f : Frame P} (hf : f ∈ g.map) :
    frameId g f.name ≠ frameRoot ∧ 0 ≤ frameId g f.name ∧
      frameType g (frameId g f.name) = some f.kind ∧
      frameParent g (frameId g f.name) = some (frameId g f.parent) ∧
      (∃ e, entry g (frameId g f.name) = some e ∧ e.frame = f) ∧
      (f.IsJoint → frameConfig g (frameId g f.name) = some (configId g f.config)) := by
  obtain ⟨i, e, h1, rfl, h3⟩ := h.exists_entry hf
  rw [h3]
  refine ⟨by unfold frameRoot; omega, by omega, ?_, ?_, ⟨e, ?_, rfl⟩, fun hj => ?_⟩
  · rw [frameType, h.entry_nat, h1]; rfl
  · rw [h.frameParent_entry h1, (h.parentId_entry h1).1]
  · rw [h.entry_nat, h1]
  · obtain ⟨k, -, -, h4, h5⟩ := h.frameConfig_entry h1 hj
    rw [h4, h5]

omit h in
theorem stop_id {b r : String} (hb : b = r ∨ b = "") :
    frameId g b = frameId g r ∨ frameId g b = frameRoot := by
  rcases hb with rfl | rfl
  · exact Or.inl rfl
  · exact Or.inr rfl

theorem chainCount_eq {b r : String} {fr : List (Frame P)} (hb : b = r ∨ b = "")
    (hfr : IsPath (find g.map) b fr) :
    ∀ (rest : List (Frame P)) (t : String) (fuel : Nat), IsPath (find g.map) t (fr ++ rest) →
      (∀ f ∈ rest, f.name ≠ r) → rest.length < fuel →
      chainCount g (frameId g r) fuel (frameId g t) = some rest.length := by
  intro rest
  induction rest using List.reverseRecOn with
  | nil =>
    intro t fuel ht _ hfuel
    rw [List.append_nil] at ht
    obtain rfl := hfr.name_eq ht
    obtain ⟨n, rfl⟩ : ∃ n, fuel = n + 1 := ⟨fuel - 1, by simp at hfuel; omega⟩
    rw [chainCount, if_pos (stop_id hb)]; rfl
  | append_singleton rest f ih =>
    intro t fuel ht hne hfuel
    rcases ht.name with ⟨h1, -⟩ | ⟨gs, f', h1, rfl, -, h2, h3⟩
    · simp at h1
    · rw [← List.append_assoc] at h1
      obtain ⟨rfl, h5⟩ := List.append_inj' h1 rfl
      simp only [List.cons.injEq, and_true] at h5
      subst h5
      obtain ⟨n, rfl⟩ : ∃ n, fuel = n + 1 := ⟨fuel - 1, by omega⟩
      obtain ⟨k1, -, k2, k3, -, -⟩ := h.frame_facts h2
      have hn : frameId g f.name ≠ frameId g r := fun e =>
        hne f (by simp) (h.frameId_inj (List.mem_map_of_mem h2) e)
      rw [chainCount, if_neg (by simp [hn, k1]), k2, k3]
      simp only
      rw [ih f.parent n h3 (fun x hx => hne x (by simp [hx]))
        (by rw [List.length_append] at hfuel; simp at hfuel; omega)]
      simp

theorem chainFrames_eq {b r : String} {fr : List (Frame P)} (hb : b = r ∨ b = "")
    (hfr : IsPath (find g.map) b fr) :
    ∀ (rest : List (Frame P)) (t : String) (fuel k : Nat) (buf : Nat → Int),
      IsPath (find g.map) t (fr ++ rest) → (∀ f ∈ rest, f.name ≠ r) → rest.length < fuel →
      ∃ out, chainFrames g (frameId g r) fuel k (frameId g t) buf = some out ∧
        (∀ (i : Nat) (f : Frame P), rest[i]? = some f → rest.length ≤ i + k →
          out (i + k - rest.length) = frameId g f.name) ∧
        (∀ i, k ≤ i ∨ i + rest.length < k → out i = buf i) := by
  intro rest
  induction rest using List.reverseRecOn with
  | nil =>
    intro t fuel k buf ht _ hfuel
    rw [List.append_nil] at ht
    obtain rfl := hfr.name_eq ht
    obtain ⟨n, rfl⟩ : ∃ n, fuel = n + 1 := ⟨fuel - 1, by simp at hfuel; omega⟩
    refine ⟨buf, ?_, by simp, by simp⟩
    rw [chainFrames, if_pos]
    rcases stop_id hb with h1 | h1
    · exact Or.inl h1
    · exact Or.inr (Or.inl h1)
  | append_singleton rest f ih =>
    intro t fuel k buf ht hne hfuel
    rcases ht.name with ⟨h1, -⟩ | ⟨gs, f', h1, rfl, -, h2, h3⟩
    · simp at h1
    · rw [← List.append_assoc] at h1
      obtain ⟨rfl, h5⟩ := List.append_inj' h1 rfl
      simp only [List.cons.injEq, and_true] at h5
      subst h5
      obtain ⟨n, rfl⟩ : ∃ n, fuel = n + 1 := ⟨fuel - 1, by omega⟩
      obtain ⟨k1, -, k2, k3, -, -⟩ := h.frame_facts h2
      have hn : frameId g f.name ≠ frameId g r := fun e =>
        hne f (by simp) (h.frameId_inj (List.mem_map_of_mem h2) e)
      rw [List.length_append, List.length_singleton] at hfuel ⊢
      rw [chainFrames]
      by_cases hk : k = 0
      · rw [if_pos (by simp [hk])]
        refine ⟨buf, rfl, ?_, fun i _ => rfl⟩
        intro i x hx hle
        have := (List.getElem?_eq_some_iff.1 hx).1
        rw [List.length_append, List.length_singleton] at this
        omega
      · rw [if_neg (by simp [hn, k1, hk]), k2, k3]
        simp only
        obtain ⟨out, o1, o2, o3⟩ := ih f.parent n (k - 1)
          (Function.update buf (k - 1) (frameId g f.name)) h3
          (fun x hx => hne x (by simp [hx])) (by omega)
        refine ⟨out, o1, fun i x hx hle => ?_, fun i hi => ?_⟩
        · by_cases hlast : i = rest.length
          · subst hlast
            rw [List.getElem?_append_right (le_refl _)] at hx
            simp only [Nat.sub_self, List.getElem?_cons_zero, Option.some.injEq] at hx
            subst hx
            have : rest.length + k - (rest.length + 1) = k - 1 := by omega
            rw [this, o3 (k - 1) (Or.inl (le_refl _)), Function.update_self]
          · have hil : i < rest.length := by
              have := (List.getElem?_eq_some_iff.1 hx).1
              rw [List.length_append, List.length_singleton] at this
              omega
            rw [List.getElem?_append_left hil] at hx
            have := o2 i x hx (by omega)
            rw [← this]
            congr 1
            omega
        · rw [o3 i (by omega), Function.update_of_ne (by omega)]

/-- The joints of a list of frames. -/
def joints (fs : List (Frame P)) : List (Frame P) := fs.filter (fun f => f.kind ≠ Kind.fixed)

omit h in
theorem joints_cons (f : Frame P) (fs : List (Frame P)) :
    joints (f :: fs) = if f.kind = Kind.fixed then joints fs else f :: joints fs := by
  unfold joints
  rw [List.filter_cons]
  split_ifs <;> simp_all

theorem chainConfigCount_eq (frames : Nat → Int) :
    ∀ (L : List (Frame P)), (∀ f ∈ L, f ∈ g.map) →
      (∀ (i : Nat) (f : Frame P), L[i]? = some f → frames i = frameId g f.name) →
      chainConfigCount g frames L.length = some (joints L).length := by
  intro L
  induction L using List.reverseRecOn with
  | nil => intro _ _; rfl
  | append_singleton L f ih =>
    intro hm hf
    have h1 : frames L.length = frameId g f.name := hf L.length f (by simp)
    obtain ⟨-, -, k2, -, -, -⟩ := h.frame_facts (hm f (by simp))
    rw [List.length_append, List.length_singleton, chainConfigCount, h1, k2]
    have ih' := ih (fun x hx => hm x (by simp [hx])) (fun i x hx => hf i x (by
      rw [List.getElem?_append_left (List.getElem?_eq_some_iff.1 hx).1]; exact hx))
    have : joints (L ++ [f]) = joints L ++ joints [f] := by simp [joints]
    rw [this, List.length_append, joints_cons]
    cases hk : f.kind with
    | fixed => simp [ih', joints]
    | revolute => simp [ih', joints]
    | prismatic => simp [ih', joints]

theorem chainConfigs_eq (frames : Nat → Int) (n : Nat) :
    ∀ (L : List (Frame P)) (i j : Nat) (buf : Nat → Int), (∀ f ∈ L, f ∈ g.map) →
      (∀ (k : Nat) (f : Frame P), L[k]? = some f → frames (i + k) = frameId g f.name) →
      j + (joints L).length ≤ n →
      ∃ out, chainConfigs g frames n L.length i j buf = some out ∧
        (∀ (k : Nat) (f : Frame P), (joints L)[k]? = some f → out (j + k) = configId g f.config) ∧
        (∀ k, k < j ∨ j + (joints L).length ≤ k → out k = buf k) := by
  intro L
  induction L with
  | nil => intro i j buf _ _ _; exact ⟨buf, rfl, by simp [joints], fun _ _ => rfl⟩
  | cons f L ih =>
    intro i j buf hm hf hn
    have h1 : frames i = frameId g f.name := by simpa using hf 0 f (by simp)
    obtain ⟨-, -, k2, -, -, k4⟩ := h.frame_facts (hm f (by simp))
    have hm' : ∀ x ∈ L, x ∈ g.map := fun x hx => hm x (by simp [hx])
    have hf' : ∀ (k : Nat) (x : Frame P), L[k]? = some x → frames (i + 1 + k) = frameId g x.name := by
      intro k x hx
      have := hf (k + 1) x (by simpa using hx)
      rw [← this]; congr 1; omega
    rw [List.length_cons, chainConfigs]
    rw [joints_cons] at hn ⊢
    by_cases hk : f.kind = Kind.fixed
    · rw [if_pos hk] at hn ⊢
      by_cases hj : j < n
      · rw [if_pos hj, h1, k2, hk]
        exact ih (i + 1) j buf hm' hf' hn
      · rw [if_neg hj]
        have hz : (joints L).length = 0 := by omega
        have : joints L = [] := List.length_eq_zero_iff.1 hz
        rw [this]
        exact ⟨buf, rfl, by simp, fun _ _ => rfl⟩
    · rw [if_neg hk, List.length_cons] at hn
      simp only [if_neg hk]
      rw [if_pos (by omega), h1, k2, k4 hk]
      obtain ⟨out, o1, o2, o3⟩ := ih (i + 1) (j + 1)
        (Function.update buf j (configId g f.config)) hm' hf' (by omega)
      refine ⟨out, ?_, fun k x hx => ?_, fun k hk' => ?_⟩
      · rw [← o1]
        cases hkk : f.kind with
        | fixed => exact absurd hkk hk
        | revolute => rfl
        | prismatic => rfl
      · cases k with
        | zero =>
          simp only [List.getElem?_cons_zero, Option.some.injEq] at hx
          subst hx
          rw [Nat.add_zero, o3 j (Or.inl (by omega)), Function.update_self]
        | succ k =>
          simp only [List.getElem?_cons_succ] at hx
          rw [← o2 k x hx]; congr 1; omega
      · rw [List.length_cons] at hk'
        rw [o3 k (by omega), Function.update_of_ne (by omega)]

end

/-! ## Configuration vectors -/

section
variable {K : Type}

/-- The loop `mem[dst(i)] = val(i)` for `n` values of `i` from the given one. -/
def writes (dst : Nat → Nat) (val : Nat → K) : Nat → Nat → (Nat → K) → (Nat → K)
  | 0, _, m => m
  | n + 1, i, m => writes dst val n (i + 1) (Function.update m (dst i) (val i))

theorem writes_frame (dst : Nat → Nat) (val : Nat → K) : ∀ (n i : Nat) (m : Nat → K) (k : Nat),
    (∀ j, i ≤ j → j < i + n → k ≠ dst j) → writes dst val n i m k = m k := by
  intro n
  induction n with
  | zero => intro i m k _; rfl
  | succ n ih =>
    intro i m k hk
    rw [writes, ih (i + 1) _ k (fun j h1 h2 => hk j (by omega) (by omega)),
      Function.update_of_ne (hk i (le_refl _) (by omega))]

theorem writes_get (dst : Nat → Nat) (val : Nat → K) : ∀ (n i : Nat) (m : Nat → K) (j : Nat),
    i ≤ j → j < i + n → (∀ j', j < j' → j' < i + n → dst j' ≠ dst j) →
    writes dst val n i m (dst j) = val j := by
  intro n
  induction n with
  | zero => intro i m j h1 h2; omega
  | succ n ih =>
    intro i m j h1 h2 h3
    rw [writes]
    by_cases hij : j = i
    · subst hij
      rw [writes_frame dst val n (j + 1) _ (dst j)
        (fun j' h4 h5 => (h3 j' (by omega) (by omega)).symm), Function.update_self]
    · exact ih (i + 1) _ j (by omega) (by omega) (fun j' h4 h5 => h3 j' h4 (by omega))

variable (s : Sub)

theorem scatterLoop_eq (sub : Nat → K) (a b : Nat) : ∀ (n i : Nat) (all : Nat → K),
    (∀ j, i ≤ j → j < i + n → 0 ≤ s.configs j) →
    scatterLoop s sub a b n i all =
      some (writes (fun j => (s.configs j).toNat * b) (fun j => sub (j * a)) n i all) := by
  intro n
  induction n with
  | zero => intro i all _; rfl
  | succ n ih =>
    intro i all hc
    rw [scatterLoop, cidx, if_pos (hc i (le_refl _) (by omega))]
    exact ih (i + 1) _ (fun j h1 h2 => hc j (by omega) (by omega))

theorem gatherLoop_eq (all : Nat → K) (b a : Nat) : ∀ (n i : Nat) (sub : Nat → K),
    (∀ j, i ≤ j → j < i + n → 0 ≤ s.configs j) →
    gatherLoop s all b a n i sub =
      some (writes (fun j => j * a) (fun j => all ((s.configs j).toNat * b)) n i sub) := by
  intro n
  induction n with
  | zero => intro i all _; rfl
  | succ n ih =>
    intro i all hc
    rw [gatherLoop, cidx, if_pos (hc i (le_refl _) (by omega))]
    exact ih (i + 1) _ (fun j h1 h2 => hc j (by omega) (by omega))

theorem configSet_eq (sub : Nat → K) (o o' : Nat) : ∀ (n i : Nat) (all : Nat → K),
    (∀ j, i ≤ j → j < i + n → 0 ≤ s.configs j) →
    configSet s sub o o' n i all =
      some (writes (fun j => o' + (s.configs j).toNat) (fun j => sub (o + j)) n i all) := by
  intro n
  induction n with
  | zero => intro i all _; rfl
  | succ n ih =>
    intro i all hc
    rw [configSet, cidx, if_pos (hc i (le_refl _) (by omega))]
    exact ih (i + 1) _ (fun j h1 h2 => hc j (by omega) (by omega))

theorem configGet_eq (all : Nat → K) : ∀ (n i : Nat) (sub : Nat → K),
    (∀ j, i ≤ j → j < i + n → 0 ≤ s.configs j) →
    configGet s all n i sub =
      some (writes (fun j => j) (fun j => all (s.configs j).toNat) n i sub) := by
  intro n
  induction n with
  | zero => intro i all _; rfl
  | succ n ih =>
    intro i all hc
    rw [configGet, cidx, if_pos (hc i (le_refl _) (by omega))]
    exact ih (i + 1) _ (fun j h1 h2 => hc j (by omega) (by omega))

theorem fillStart_eq (nAll : Nat) (start : Nat → K) (n : Nat) (p : Nat → K) (k : Nat) :
    fillStart nAll start n p k = if k < n * nAll then start (k % nAll) else p k := by
  induction n with
  | zero => simp [fillStart]
  | succ n ih =>
    simp only [fillStart]
    by_cases h1 : n * nAll ≤ k ∧ k < n * nAll + nAll
    · rw [if_pos h1, if_pos (by rw [Nat.succ_mul]; exact h1.2)]
      congr 1
      have : k = (k - n * nAll) + nAll * n := by rw [Nat.mul_comm nAll n]; omega
      conv_rhs => rw [this]
      rw [Nat.add_mul_mod_self_left, Nat.mod_eq_of_lt (by omega)]
    · rw [if_neg h1, ih]
      rw [Nat.succ_mul]
      by_cases h2 : k < n * nAll
      · rw [if_pos h2, if_pos (by omega)]
      · rw [if_neg h2, if_neg (by omega)]

/-- Setting the points one after the other. -/
theorem setPoints_eq (nAll : Nat) (path : Nat → K)
    (hc : ∀ j, j < s.configCount → 0 ≤ s.configs j ∧ s.configs j < nAll) :
    ∀ (n i : Nat) (p : Nat → K), ∃ out, setPoints s nAll path n i p = some out ∧
      (∀ k, (k < i * nAll ∨ (i + n) * nAll ≤ k) → out k = p k) ∧
      ∀ m, i ≤ m → m < i + n → ∀ c, c < nAll →
        ((∀ j, j < s.configCount → s.configs j ≠ c) → out (m * nAll + c) = p (m * nAll + c)) ∧
        (∀ j, j < s.configCount → s.configs j = c →
          (∀ j', j < j' → j' < s.configCount → s.configs j' ≠ c) →
          out (m * nAll + c) = path (m * s.configCount + j)) := by
  intro n
  induction n with
  | zero => intro i p; exact ⟨p, rfl, fun _ _ => rfl, fun m h1 h2 => by omega⟩
  | succ n ih =>
    intro i p
    rw [setPoints, configSet_eq s path _ _ _ 0 p (fun j _ h2 => (hc j (by omega)).1)]
    simp only
    obtain ⟨out, o1, o2, o3⟩ := ih (i + 1)
      (writes (fun j => i * nAll + (s.configs j).toNat)
        (fun j => path (i * s.configCount + j)) s.configCount 0 p)
    have key : ∀ k, (k < i * nAll ∨ (i + 1) * nAll ≤ k) →
        writes (fun j => i * nAll + (s.configs j).toNat)
          (fun j => path (i * s.configCount + j)) s.configCount 0 p k = p k := by
      intro k hk
      apply writes_frame
      intro j _ h2 e
      have := hc j (by omega)
      rw [Nat.succ_mul] at hk
      omega
    refine ⟨out, o1, fun k hk => ?_, fun m h1 h2 c hcn => ?_⟩
    · have e1 : (i + 1) * nAll = i * nAll + nAll := Nat.succ_mul _ _
      have e2 : (i + (n + 1)) * nAll = (i + 1 + n) * nAll := by congr 1; omega
      have e3 : (i + 1) * nAll ≤ (i + 1 + n) * nAll := Nat.mul_le_mul_right _ (by omega)
      rw [o2 k (by omega), key k (by omega)]
    · by_cases hm : m = i
      · subst hm
        have e1 : (m + 1) * nAll = m * nAll + nAll := Nat.succ_mul _ _
        rw [o2 (m * nAll + c) (by omega)]
        constructor
        · intro hne
          apply writes_frame
          intro j _ h4 e
          have := hc j (by omega)
          exact hne j (by omega) (by omega)
        · intro j hj hjc hlast
          have e2 : m * nAll + c = m * nAll + (s.configs j).toNat := by omega
          rw [e2]
          exact writes_get (fun j => m * nAll + (s.configs j).toNat)
            (fun j => path (m * s.configCount + j)) s.configCount 0 p j (by omega) (by omega)
            (fun j' h5 h6 => by
              have := hlast j' h5 (by omega)
              have := hc j' (by omega)
              omega)
      · have h3 := o3 m (by omega) (by omega) c hcn
        have e1 : (i + 1) * nAll ≤ m * nAll := Nat.mul_le_mul_right _ (by omega)
        rw [key (m * nAll + c) (by omega)] at h3
        exact h3

end
end Verif.Sg
