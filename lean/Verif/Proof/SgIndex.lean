import Verif.Proof.Sg

/-! Lemmas: what the queries return on an indexed scene graph. -/

namespace Verif.Sg

variable {P : Type}

/-- The graph's index members are those the numbering loop computes for some topological order of
the map. -/
structure Indexed (g : Graph P) (s : NumSt P) : Prop where
  inv : NumInv (s.entries.map (·.frame)) s
  perm : (s.entries.map (·.frame)).Perm g.map
  nodup : (names g.map).Nodup
  ne : ∀ f ∈ g.map, f.name ≠ ""
  frames : g.frames = s.entries.map some
  cmap : g.configMap = s.configMap
  rmap : g.configRmap = s.configRmap

theorem index_dirty_ok {g : Graph P} (hd : g.dirty = true) (hc : Closed g.map)
    (ha : Acyclic g.map) (hn : (names g.map).Nodup) (he : ∀ f ∈ g.map, f.name ≠ "") :
    ∃ g' s, index g = some (Status.ok, g') ∧ Indexed g' s ∧ g'.map = g.map ∧
      g'.configSize = some s.configSize ∧ g'.dirty = false := by
  obtain ⟨r, hr⟩ := exists_rank hc ha
  obtain ⟨t, ht, hp, htop⟩ := sortAll_perm hc hr hn he
  have hinv := numInv_foldl htop
  unfold index
  rw [hd, (parentsOk_iff _).2 hc]
  simp only [Bool.not_true, Bool.false_eq_true, if_false, ht]
  set s := t.1.foldl numStep ⟨[], [], [], [], 0⟩ with hs
  have hlen : s.entries.length = g.map.length := by
    rw [← hp.length_eq, ← hinv.frames, List.length_map]
  refine ⟨_, s, rfl, ⟨?_, ?_, hn, he, ?_, rfl, rfl⟩, rfl, rfl, rfl⟩
  · rw [hinv.frames]; exact hinv
  · rw [hinv.frames]; exact hp
  · simp [hlen]

theorem index_total {g : Graph P} : ∃ st g', index g = some (st, g') ∧ g'.map = g.map := by
  unfold index
  by_cases hd : g.dirty = true
  · rw [hd]
    by_cases hc : parentsOk g.map = true
    · rw [hc]
      obtain ⟨t, ht, -⟩ := sortAll_total ((parentsOk_iff _).1 hc) g.map ([], []) (fun _ h => h)
      simp only [Bool.not_true, Bool.false_eq_true, if_false, ht]
      exact ⟨_, _, rfl, rfl⟩
    · rw [Bool.not_eq_true] at hc
      rw [hc]
      exact ⟨_, _, rfl, rfl⟩
  · rw [Bool.not_eq_true] at hd
    rw [hd]
    exact ⟨_, _, rfl, rfl⟩

theorem index_invalid {g : Graph P} (hd : g.dirty = true) :
    (∃ g', index g = some (Status.invalidFrame, g')) ↔ ¬ Closed g.map := by
  rw [← parentsOk_iff]
  unfold index
  rw [hd]
  cases hc : parentsOk g.map with
  | true =>
    obtain ⟨t, ht, -⟩ := sortAll_total ((parentsOk_iff _).1 hc) g.map ([], []) (fun _ h => h)
    simp [ht]
  | false => simp

section
variable {g : Graph P} {s : NumSt P} (h : Indexed g s)
include h

theorem Indexed.count : frameCount g = g.map.length := by
  rw [frameCount, h.frames, List.length_map, ← h.perm.length_eq, List.length_map]

theorem Indexed.count' : frameCount g = s.entries.length := by
  rw [frameCount, h.frames, List.length_map]

theorem Indexed.entry_nat (i : Nat) : entry g (i : Int) = s.entries[i]? := by
  unfold entry
  rw [if_neg (by omega), h.frames, Int.toNat_natCast, List.getElem?_map]
  cases s.entries[i]? <;> rfl

theorem Indexed.names_nodup : (s.entries.map (·.frame.name)).Nodup := by
  have := (h.perm.map (·.name)).nodup_iff.2 h.nodup
  simpa [List.map_map, Function.comp_def] using this

/-- A listed frame has its position as id. -/
theorem Indexed.frameId_entry {i : Nat} {e : Entry P} (he : s.entries[i]? = some e) :
    frameId g e.frame.name = (i : Int) ∧ e.frame ∈ g.map := by
  have hmem : e.frame ∈ g.map :=
    h.perm.mem_iff.1 (List.mem_map_of_mem (List.mem_of_getElem? he))
  refine ⟨?_, hmem⟩
  unfold frameId
  rw [if_neg (h.ne _ hmem), find_eq h.nodup hmem]
  simp only
  have hi : i < s.entries.length := (List.getElem?_eq_some_iff.1 he).1
  have hei : s.entries[i] = e := (List.getElem?_eq_some_iff.1 he).2
  have : g.frames.findIdx? (fun x => x.any (fun x => x.frame.name = e.frame.name)) = some i := by
    rw [List.findIdx?_eq_some_iff_getElem]
    refine ⟨by rw [h.frames, List.length_map]; exact hi, ?_, ?_⟩
    · simp [h.frames, hei]
    · intro j hji
      simp only [h.frames, List.getElem_map, Option.any_some, decide_eq_true_eq]
      intro hjn
      have := (List.nodup_iff_injective_get.1 h.names_nodup)
        (a₁ := ⟨j, by rw [List.length_map]; omega⟩) (a₂ := ⟨i, by rw [List.length_map]; omega⟩)
        (by simp [hjn, hei])
      simp only [Fin.mk.injEq] at this
      omega
  rw [this]

theorem Indexed.exists_entry {f : Frame P} (hf : f ∈ g.map) :
    ∃ i : Nat, ∃ e, s.entries[i]? = some e ∧ e.frame = f ∧ frameId g f.name = i := by
  obtain ⟨e, he, hef⟩ := List.mem_map.1 (h.perm.mem_iff.2 hf)
  obtain ⟨i, hi⟩ := List.mem_iff_getElem?.1 he
  exact ⟨i, e, hi, hef, hef ▸ (h.frameId_entry hi).1⟩

theorem Indexed.frameName_entry {i : Nat} {e : Entry P} (he : s.entries[i]? = some e) :
    frameName g (i : Int) = some e.frame.name := by
  have hi : i < s.entries.length := (List.getElem?_eq_some_iff.1 he).1
  unfold frameName
  rw [if_neg (by unfold frameRoot; omega), if_neg (by unfold frameNone; omega), if_neg, h.entry_nat,
    he]
  · rfl
  · rw [h.count']; omega

theorem Indexed.frameParent_entry {i : Nat} {e : Entry P} (he : s.entries[i]? = some e) :
    frameParent g (i : Int) = some e.parentId := by
  unfold frameParent
  rw [if_neg (by unfold frameRoot frameNone; omega), h.entry_nat, he]
  rfl

theorem Indexed.parentId_entry {i : Nat} {e : Entry P} (he : s.entries[i]? = some e) :
    e.parentId = frameId g e.frame.parent ∧ frameId g e.frame.parent < (i : Int) := by
  rcases h.inv.parent i e he with ⟨h1, h2⟩ | ⟨-, j, h2, h3, h4⟩
  · rw [h1, h2]
    simp only [frameId, if_true, frameRoot, true_and]
    omega
  · cases hj : s.entries[j]? with
    | none => rw [hj] at h3; simp at h3
    | some e' =>
      rw [hj] at h3
      simp only [Option.map_some, Option.some.injEq] at h3
      have := (h.frameId_entry hj).1
      rw [h3] at this
      rw [this, h4]
      omega

theorem Indexed.frameConfig_entry {i : Nat} {e : Entry P} (he : s.entries[i]? = some e)
    (hj : e.frame.IsJoint) : ∃ k, e.configIndex = some k ∧ s.configRmap[k]? = some e.frame.config ∧
      frameConfig g (i : Int) = some (k : Int) ∧ configId g e.frame.config = (k : Int) := by
  obtain ⟨k, h1, h2⟩ := h.inv.cfg_joint e (List.mem_of_getElem? he) hj
  refine ⟨k, h1, h2, ?_, ?_⟩
  · unfold frameConfig
    rw [h.entry_nat, he]
    simp only
    cases hk : e.frame.kind with
    | fixed => exact absurd hk hj
    | revolute => simp [h1]
    | prismatic => simp [h1]
  · unfold configId
    rw [h.cmap, (h.inv.map_iff _ _).2 h2]

/-- There are no more configurations than frames. -/
theorem Indexed.configs_le : s.configRmap.length ≤ s.entries.length := by
  have hsub : s.configRmap ⊆ s.entries.map (·.frame.config) := by
    intro c hc
    obtain ⟨f, hf, -, rfl⟩ := h.inv.used c hc
    obtain ⟨e, he, rfl⟩ := List.mem_map.1 hf
    exact List.mem_map_of_mem (f := fun e : Entry P => e.frame.config) he
  have := (List.subperm_of_subset h.inv.nodup hsub).length_le
  simpa using this

theorem Indexed.configName_nat {k : Nat} {c : String} (hk : s.configRmap[k]? = some c) :
    configName g (k : Int) = some c := by
  have hlt := (List.getElem?_eq_some_iff.1 hk).1
  have := h.configs_le
  unfold configName
  rw [if_neg (by omega), if_neg (by omega), if_neg (by rw [h.count']; omega), h.rmap,
    Int.toNat_natCast, hk]

end

/-! ## Histories -/

/-- What a history leaves under each name: the last frame added and not removed since. -/
def contents : List (Op P) → String → Option (Frame P) :=
  fun os => os.foldl (fun c o =>
    match o with
    | Op.add f => fun n => if n = f.name then some f else c n
    | Op.rm k => fun n => if n = k then none else c n
    | Op.init => c) (fun _ => none)

/-- Invariant of a graph reached by a history. -/
structure Reach (g : Graph P) : Prop where
  sorted : Sorted g.map
  clean : g.dirty = false → g = create ∨
    ∃ g0, g0.dirty = true ∧ g0.map = g.map ∧ index g0 = some (Status.ok, g)

theorem reach_create : Reach (create : Graph P) := ⟨by simp [create, Sorted], fun _ => Or.inl rfl⟩

theorem reach_step {g g' : Graph P} {o : Op P} (h : Reach g) (hs : step g o = some g') :
    Reach g' := by
  cases o with
  | add f =>
    simp only [step, Option.some.injEq] at hs
    subst hs
    exact ⟨sorted_mapPut h.sorted f, fun h => by simp [add] at h⟩
  | rm n =>
    simp only [step, Option.some.injEq] at hs
    subst hs
    exact ⟨sorted_filter h.sorted _, fun h => by simp [rm] at h⟩
  | init =>
    simp only [step, Option.map_eq_some_iff] at hs
    obtain ⟨⟨st, g''⟩, h1, rfl⟩ := hs
    obtain ⟨st', g', h2, h3⟩ := index_total (g := g)
    rw [h1] at h2
    simp only [Option.some.injEq, Prod.mk.injEq] at h2
    obtain ⟨rfl, rfl⟩ := h2
    refine ⟨by rw [h3]; exact h.sorted, fun hd => ?_⟩
    by_cases hg : g.dirty = true
    · cases st with
      | ok => exact Or.inr ⟨g, hg, h3.symm, h1⟩
      | invalidFrame =>
        unfold index at h1
        rw [hg] at h1
        simp only [Bool.not_true, Bool.false_eq_true, if_false] at h1
        split_ifs at h1 with hp
        · simp only [Option.some.injEq, Prod.mk.injEq, true_and] at h1
          rw [← h1] at hd
          rw [hd] at hg
          exact absurd hg (by simp)
        · split at h1
          · exact absurd h1 (by simp)
          · simp at h1
    · rw [Bool.not_eq_true] at hg
      have : g'' = g := by
        unfold index at h1
        rw [hg] at h1
        exact (by simpa using h1.symm : _ ∧ g'' = g).2
      simp only [this]
      exact h.clean hg

theorem reach_run {g g' : Graph P} {os : List (Op P)} (h : Reach g) (hr : run g os = some g') :
    Reach g' := by
  induction os generalizing g with
  | nil => simp only [run, Option.some.injEq] at hr; exact hr ▸ h
  | cons o os ih =>
    unfold run at hr
    cases hs : step g o with
    | none => rw [hs] at hr; simp at hr
    | some g1 => rw [hs] at hr; exact ih (reach_step h hs) hr

theorem run_total (g : Graph P) (os : List (Op P)) : ∃ g', run g os = some g' := by
  induction os generalizing g with
  | nil => exact ⟨g, rfl⟩
  | cons o os ih =>
    have : ∃ g1, step g o = some g1 := by
      cases o with
      | add f => exact ⟨_, rfl⟩
      | rm n => exact ⟨_, rfl⟩
      | init =>
        obtain ⟨st, g', h, -⟩ := index_total (g := g)
        exact ⟨g', by simp [step, h]⟩
    obtain ⟨g1, h1⟩ := this
    unfold run
    rw [h1]
    exact ih g1

theorem find_iff {m : List (Frame P)} (hn : (names m).Nodup) {n : String} {f : Frame P} :
    find m n = some f ↔ f ∈ m ∧ f.name = n :=
  ⟨find_some, fun h => h.2 ▸ find_eq hn h.1⟩

theorem find_mapPut {m : List (Frame P)} (h : Sorted m) (f : Frame P) (n : String) :
    find (mapPut m f) n = if n = f.name then some f else find m n := by
  have hs := (sorted_mapPut h f).nodup
  split_ifs with e
  · rw [find_iff hs, mem_mapPut h]
    exact ⟨Or.inl rfl, e.symm⟩
  · refine Option.ext (fun x => ?_)
    rw [find_iff hs, find_iff h.nodup, mem_mapPut h]
    constructor
    · rintro ⟨rfl | ⟨h1, h2⟩, h3⟩
      · exact absurd h3.symm e
      · exact ⟨h1, h3⟩
    · rintro ⟨h1, h3⟩
      exact ⟨Or.inr ⟨h1, fun h => e (h3 ▸ h)⟩, h3⟩

theorem find_filter {m : List (Frame P)} (h : Sorted m) (k n : String) :
    find (m.filter (fun f => f.name ≠ k)) n = if n = k then none else find m n := by
  have hs := (sorted_filter h (fun f => f.name ≠ k)).nodup
  split_ifs with e
  · rw [find_none]
    intro hm
    obtain ⟨f, hf, hfn⟩ := List.mem_map.1 hm
    have := (List.mem_filter.1 hf).2
    simp only [ne_eq, decide_eq_true_eq] at this
    exact this (hfn.trans e)
  · refine Option.ext (fun x => ?_)
    rw [find_iff hs, find_iff h.nodup, List.mem_filter]
    constructor
    · rintro ⟨⟨h1, -⟩, h3⟩; exact ⟨h1, h3⟩
    · rintro ⟨h1, rfl⟩; exact ⟨⟨h1, by simpa using e⟩, rfl⟩

theorem find_run {os : List (Op P)} {g : Graph P} (hr : run create os = some g) (n : String) :
    find g.map n = contents os n := by
  have key : ∀ (os : List (Op P)) (g0 g : Graph P) (c : String → Option (Frame P)), Reach g0 →
      (∀ n, find g0.map n = c n) → run g0 os = some g → find g.map n =
        (os.foldl (fun c o =>
          match o with
          | Op.add f => fun n => if n = f.name then some f else c n
          | Op.rm k => fun n => if n = k then none else c n
          | Op.init => c) c) n := by
    intro os
    induction os with
    | nil => intro g0 g c _ hc hr; simp only [run, Option.some.injEq] at hr; rw [← hr]; exact hc n
    | cons o os ih =>
      intro g0 g c hreach hc hr
      unfold run at hr
      cases hs : step g0 o with
      | none => rw [hs] at hr; simp at hr
      | some g1 =>
        rw [hs] at hr
        rw [List.foldl_cons]
        refine ih g1 g _ (reach_step hreach hs) (fun k => ?_) hr
        cases o with
        | add f =>
          simp only [step, Option.some.injEq] at hs
          subst hs
          simp only [add, find_mapPut hreach.sorted, hc]
        | rm j =>
          simp only [step, Option.some.injEq] at hs
          subst hs
          simp only [rm, find_filter hreach.sorted, hc]
        | init =>
          simp only [step, Option.map_eq_some_iff] at hs
          obtain ⟨⟨st, g''⟩, h1, rfl⟩ := hs
          obtain ⟨st', g', h2, h3⟩ := index_total (g := g0)
          rw [h1] at h2
          simp only [Option.some.injEq, Prod.mk.injEq] at h2
          obtain ⟨rfl, rfl⟩ := h2
          rw [h3]
          exact hc k
  exact key os create g (fun _ => none) reach_create (fun _ => rfl) hr

/-- An `init` of a reachable graph that succeeds leaves it indexed. -/
theorem reach_indexed {g g' : Graph P} (h : Reach g) (hi : index g = some (Status.ok, g'))
    (ha : Acyclic g.map) (he : ∀ f ∈ g.map, f.name ≠ "") :
    ∃ s, Indexed g' s ∧ g'.map = g.map ∧ g'.dirty = false ∧
      (g.map ≠ [] → g'.configSize = some s.configSize) ∧
      (g.dirty = true → g'.configSize = some s.configSize) := by
  have main : ∀ g0 : Graph P, g0.dirty = true → index g0 = some (Status.ok, g') →
      g0.map = g.map → ∃ s, Indexed g' s ∧ g'.map = g.map ∧ g'.dirty = false ∧
        g'.configSize = some s.configSize := by
    intro g0 hd hi0 hm
    have hc : Closed g0.map := by
      by_contra hc
      obtain ⟨g1, h1⟩ := (index_invalid hd).2 hc
      rw [hi0] at h1
      simp at h1
    obtain ⟨g1, s, h1, h2, h3, h4, h5⟩ := index_dirty_ok hd hc (hm ▸ ha) (hm ▸ h.sorted.nodup)
      (hm ▸ he)
    rw [hi0] at h1
    simp only [Option.some.injEq, Prod.mk.injEq, true_and] at h1
    subst h1
    exact ⟨s, h2, h3.trans hm, h5, h4⟩
  by_cases hd : g.dirty = true
  · obtain ⟨s, h1, h2, h3, h4⟩ := main g hd hi rfl
    exact ⟨s, h1, h2, h3, fun _ => h4, fun _ => h4⟩
  · rw [Bool.not_eq_true] at hd
    have hg : g' = g := by
      unfold index at hi
      rw [hd] at hi
      simpa using hi.symm
    rcases h.clean hd with hcr | ⟨g0, h1, h2, h3⟩
    · subst hcr
      rw [hg]
      refine ⟨⟨[], [], [], [], 0⟩, ⟨by simpa using numInv_nil, ?_, ?_, he, ?_, rfl, rfl⟩, rfl, rfl,
        fun h => absurd rfl h, fun h => absurd h (by simp [create])⟩ <;> simp [create]
    · obtain ⟨s, a1, a2, a3, a4⟩ := main g0 h1 (hg ▸ h3) h2
      exact ⟨s, a1, a2, a3, fun _ => a4, fun _ => a4⟩

end Verif.Sg
