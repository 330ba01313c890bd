import Verif.Proof.SgIndex

/-!
# C49: scene graph indexing is a topological order

The scene graph is reached from `aa_rx_sg_create` by any history of `aa_rx_sg_add_frame_*`,
`aa_rx_sg_rm_frame` and `aa_rx_sg_init` calls.  `contents` is the specification of what the history
leaves in the graph: a function from names to frames.
-/

namespace Verif.Sg

variable {P : Type}

/-- `p` names the parent of the frame called `n`. -/
def IsParent (c : String → Option (Frame P)) (p n : String) : Prop :=
  p ≠ "" ∧ ∃ f, c n = some f ∧ f.parent = p

/-- No frame is its own ancestor. -/
def Forest (c : String → Option (Frame P)) : Prop :=
  ∀ n, ¬ Relation.TransGen (IsParent c) n n

/-- A configuration name used by a joint. -/
def UsesConfig (c : String → Option (Frame P)) (k : String) : Prop :=
  ∃ n f, c n = some f ∧ f.IsJoint ∧ f.config = k

theorem mem_map_iff {os : List (Op P)} {g : Graph P} (hr : run create os = some g) (f : Frame P) :
    f ∈ g.map ↔ contents os f.name = some f := by
  rw [← find_run hr, find_iff (reach_run reach_create hr).sorted.nodup]
  simp

theorem forest_acyclic {os : List (Op P)} {g : Graph P} (hr : run create os = some g)
    (hf : Forest (contents os)) : Acyclic g.map := by
  intro n hn
  refine hf n (Relation.TransGen.mono (p := IsParent (contents os)) ?_ n n hn)
  rintro a b ⟨h1, f, h2, rfl, h3⟩
  exact ⟨h1, f, (mem_map_iff hr f).1 h2, h3⟩

theorem contents_name {os : List (Op P)} {g : Graph P} (hr : run create os = some g) {n : String}
    {f : Frame P} (h : contents os n = some f) : f.name = n ∧ f ∈ g.map := by
  rw [← find_run hr] at h
  exact ⟨(find_some h).2, (find_some h).1⟩

/-- C49: no history is undefined, and the frames of the graph are the ones added last under their
name and not removed since, one per name. -/
theorem C49_contents (os : List (Op P)) :
    ∃ g, run create os = some g ∧ (∀ n, find g.map n = contents os n) ∧ (names g.map).Nodup := by
  obtain ⟨g, hg⟩ := run_total create os
  exact ⟨g, hg, find_run hg, (reach_run reach_create hg).sorted.nodup⟩

/-- C49: `aa_rx_sg_init` returns, and it returns an error exactly when some frame names a parent
that is not in the graph.  For every history, cyclic graphs included. -/
theorem C49_error_iff (os : List (Op P)) (g : Graph P) (hr : run create os = some g) :
    ∃ st g', index g = some (st, g') ∧
      (st = Status.invalidFrame ↔
        ∃ n f, contents os n = some f ∧ f.parent ≠ "" ∧ contents os f.parent = none) := by
  have hreach := reach_run reach_create hr
  have hclosed : ¬ Closed g.map ↔
      ∃ n f, contents os n = some f ∧ f.parent ≠ "" ∧ contents os f.parent = none := by
    unfold Closed
    push Not
    constructor
    · rintro ⟨f, h1, h2, h3⟩
      exact ⟨f.name, f, (mem_map_iff hr f).1 h1, h2, by rw [← find_run hr]; exact find_none.2 h3⟩
    · rintro ⟨n, f, h1, h2, h3⟩
      exact ⟨f, (contents_name hr h1).2, h2, find_none.1 (by rw [find_run hr]; exact h3)⟩
  obtain ⟨st, g', h, -⟩ := index_total (g := g)
  refine ⟨st, g', h, ?_⟩
  rw [← hclosed]
  by_cases hd : g.dirty = true
  · rw [← index_invalid hd, h]
    constructor
    · rintro rfl; exact ⟨g', rfl⟩
    · rintro ⟨g1, h1⟩
      simp only [Option.some.injEq, Prod.mk.injEq] at h1
      exact h1.1
  · rw [Bool.not_eq_true] at hd
    have hst : st = Status.ok := by
      unfold index at h
      rw [hd] at h
      exact (by simpa using h.symm : st = _ ∧ _).1
    have : Closed g.map := by
      rcases hreach.clean hd with rfl | ⟨g0, h1, h2, h3⟩
      · intro f hf; simp [create] at hf
      · rw [← h2]
        by_contra hc
        obtain ⟨g1, h4⟩ := (index_invalid h1).2 hc
        rw [h3] at h4
        simp at h4
    rw [hst]
    exact ⟨fun h => by simp at h, fun h => absurd this h⟩

/-- C49 (partial: no frame is called `""`, the name of the root): after a successful
`aa_rx_sg_init` of a forest
* there are as many indices as frames, and names and indices are in bijection,
* `aa_rx_sg_frame_parent` is the index of the parent (`AA_RX_FRAME_ROOT` for the frames in the
  global frame), and it is smaller than the frame's index. -/
theorem C49_order_partial (os : List (Op P)) (g g' : Graph P) (hr : run create os = some g)
    (hf : Forest (contents os)) (he : contents os "" = none)
    (hi : index g = some (Status.ok, g')) :
    (∀ n f, contents os n = some f →
      0 ≤ frameId g' n ∧ frameId g' n < frameCount g' ∧ frameName g' (frameId g' n) = some n ∧
      frameType g' (frameId g' n) = some f.kind ∧
      frameParent g' (frameId g' n) = some (frameId g' f.parent) ∧
      frameId g' f.parent < frameId g' n ∧
      (f.parent = "" → frameId g' f.parent = frameRoot) ∧
      (f.parent ≠ "" → 0 ≤ frameId g' f.parent)) ∧
    (∀ i : Nat, i < frameCount g' →
      ∃ n f, contents os n = some f ∧ frameName g' i = some n ∧ frameId g' n = i) := by
  have hreach := reach_run reach_create hr
  have hne : ∀ f ∈ g.map, f.name ≠ "" := by
    intro f hm h0
    rw [mem_map_iff hr, h0, he] at hm
    simp at hm
  obtain ⟨s, hs, hm, -, -, -⟩ := reach_indexed hreach hi (forest_acyclic hr hf) hne
  refine ⟨fun n f hc => ?_, fun i hlt => ?_⟩
  · obtain ⟨rfl, hfm⟩ := contents_name hr hc
    obtain ⟨i, e, h1, rfl, h3⟩ := hs.exists_entry (hm ▸ hfm)
    have hlt : i < s.entries.length := (List.getElem?_eq_some_iff.1 h1).1
    rw [h3]
    refine ⟨by omega, by rw [hs.count']; omega, hs.frameName_entry h1, ?_, ?_,
      (hs.parentId_entry h1).2, fun h => by rw [h]; rfl, fun h => ?_⟩
    · rw [frameType, hs.entry_nat, h1]; rfl
    · rw [hs.frameParent_entry h1, (hs.parentId_entry h1).1]
    · rw [← (hs.parentId_entry h1).1]
      rcases hs.inv.parent i e h1 with ⟨h4, -⟩ | ⟨-, j, -, -, h4⟩
      · exact absurd h4 h
      · rw [h4]; omega
  · rw [hs.count'] at hlt
    obtain ⟨e, h1⟩ : ∃ e, s.entries[i]? = some e := ⟨_, List.getElem?_eq_getElem hlt⟩
    obtain ⟨h2, h3⟩ := hs.frameId_entry h1
    exact ⟨e.frame.name, e.frame, (mem_map_iff hr _).1 (hm ▸ h3), hs.frameName_entry h1, h2⟩

/-- C49 (partial: no frame is called `""`, and the graph has been changed since its creation):
after a successful `aa_rx_sg_init` of a forest the configuration ids are `0 … n-1` where `n` is
`aa_rx_sg_config_count`; ids and the names used by joints are in bijection through
`aa_rx_sg_config_id` and `aa_rx_sg_config_name`, an unused name has no id, and every joint's
`aa_rx_sg_frame_config` is the id of its configuration name, so that joints naming the same
configuration share it; fixed frames have none. -/
theorem C49_configs_partial (os : List (Op P)) (g g' : Graph P) (hr : run create os = some g)
    (hf : Forest (contents os)) (he : contents os "" = none) (hch : g.dirty = true ∨ g.map ≠ [])
    (hi : index g = some (Status.ok, g')) :
    ∃ n : Nat, configCount g' = some n ∧
      (∀ c, UsesConfig (contents os) c → 0 ≤ configId g' c ∧ configId g' c < n ∧
        configName g' (configId g' c) = some c) ∧
      (∀ c, ¬ UsesConfig (contents os) c → configId g' c = configNone) ∧
      (∀ k : Nat, k < n → ∃ c, UsesConfig (contents os) c ∧ configId g' c = k) ∧
      (∀ c1 c2, UsesConfig (contents os) c1 → configId g' c1 = configId g' c2 → c1 = c2) ∧
      (∀ m f, contents os m = some f → f.IsJoint →
        frameConfig g' (frameId g' m) = some (configId g' f.config)) ∧
      (∀ m f, contents os m = some f → ¬ f.IsJoint →
        frameConfig g' (frameId g' m) = some configNone) := by
  have hreach := reach_run reach_create hr
  have hne : ∀ f ∈ g.map, f.name ≠ "" := by
    intro f hm h0
    rw [mem_map_iff hr, h0, he] at hm
    simp at hm
  obtain ⟨s, hs, hm, -, h1, h2⟩ := reach_indexed hreach hi (forest_acyclic hr hf) hne
  have used : ∀ c, UsesConfig (contents os) c ↔ c ∈ s.configRmap := by
    intro c
    constructor
    · rintro ⟨n, f, h3, h4, rfl⟩
      obtain ⟨i, e, h5, rfl, -⟩ := hs.exists_entry (hm ▸ (contents_name hr h3).2)
      obtain ⟨k, -, h6, -⟩ := hs.frameConfig_entry h5 h4
      exact List.mem_of_getElem? h6
    · intro hc
      obtain ⟨f, h3, h4, h5⟩ := hs.inv.used c hc
      have h6 : f ∈ g.map := hm ▸ hs.perm.mem_iff.1 h3
      exact ⟨f.name, f, (mem_map_iff hr f).1 h6, h4, h5⟩
  have cid : ∀ c (k : Nat), s.configRmap[k]? = some c → configId g' c = k := by
    intro c k hk
    unfold configId
    rw [hs.cmap, (hs.inv.map_iff c k).2 hk]
  have cnone : ∀ c, c ∉ s.configRmap → configId g' c = configNone := by
    intro c hc
    unfold configId
    rw [hs.cmap]
    cases hl : lookupConfig s.configMap c with
    | none => rfl
    | some k => exact absurd (List.mem_of_getElem? ((hs.inv.map_iff c k).1 hl)) hc
  refine ⟨s.configSize, hch.elim h2 h1, fun c hc => ?_, fun c hc => ?_, fun k hk => ?_,
    fun c1 c2 hc he => ?_, fun m f hc hj => ?_, fun m f hc hj => ?_⟩
  · obtain ⟨k, hk⟩ := List.mem_iff_getElem?.1 ((used c).1 hc)
    have hlt := (List.getElem?_eq_some_iff.1 hk).1
    rw [cid c k hk, hs.inv.size]
    exact ⟨by omega, by omega, hs.configName_nat hk⟩
  · exact cnone c (fun h => hc ((used c).2 h))
  · rw [hs.inv.size] at hk
    have := List.getElem?_eq_getElem hk
    exact ⟨_, (used _).2 (List.getElem_mem hk), cid _ _ this⟩
  · obtain ⟨k, hk⟩ := List.mem_iff_getElem?.1 ((used c1).1 hc)
    rw [cid c1 k hk] at he
    by_cases hc2 : c2 ∈ s.configRmap
    · obtain ⟨j, hj⟩ := List.mem_iff_getElem?.1 hc2
      rw [cid c2 j hj] at he
      have : k = j := by omega
      subst this
      exact Option.some.inj (hk.symm.trans hj)
    · rw [cnone c2 hc2] at he
      unfold configNone at he
      omega
  · obtain ⟨rfl, hfm⟩ := contents_name hr hc
    obtain ⟨i, e, h5, rfl, h6⟩ := hs.exists_entry (hm ▸ hfm)
    obtain ⟨k, -, -, h7, h8⟩ := hs.frameConfig_entry h5 hj
    rw [h6, h7, h8]
  · obtain ⟨rfl, hfm⟩ := contents_name hr hc
    obtain ⟨i, e, h5, rfl, h6⟩ := hs.exists_entry (hm ▸ hfm)
    have hk : e.frame.kind = Kind.fixed := by
      by_contra hk; exact hj hk
    rw [h6, frameConfig, hs.entry_nat, h5]
    simp only [hk]

/-- C49: the root and the absent frame are told apart by name, id and parent, and a number past the
last frame has no frame's name. -/
theorem C49_root (g : Graph P) :
    frameId g "" = frameRoot ∧ frameName g frameRoot = some "" ∧
    frameName g frameNone = some "?" ∧ frameParent g frameRoot = some frameNone ∧
    frameParent g frameNone = some frameNone ∧
    (∀ i : Int, (frameCount g : Int) ≤ i → frameName g i = some "?") := by
  refine ⟨rfl, rfl, rfl, rfl, rfl, fun i hi => ?_⟩
  unfold frameName
  rw [if_neg (by unfold frameRoot; omega), if_neg (by unfold frameNone; omega),
    if_pos (Or.inl hi)]

/-- A small frame for the examples. -/
def fr (n p : String) (k : Kind) (c : String) : Frame Unit := ⟨n, p, k, c, ()⟩

/-- A forest added children first, with a configuration shared by two joints. -/
def exOps : List (Op Unit) :=
  [Op.add (fr "tip" "mid" Kind.revolute "q1"), Op.add (fr "mid" "zbase" Kind.prismatic "q0"),
   Op.add (fr "zbase" "" Kind.fixed ""), Op.add (fr "other" "zbase" Kind.revolute "q1")]

/-- The example meets the hypotheses: `init` succeeds and orders `zbase` before `mid` before
`tip` although the map is in the order mid, other, tip, zbase. -/
example : ((run create exOps).bind index).map (fun r => (r.1, r.2.configRmap)) =
    some (Status.ok, ["q0", "q1"]) := by decide +kernel

example : ((run create exOps).bind index).map
    (fun r => r.2.frames.map (fun e => e.map (fun e => e.frame.name))) =
    some [some "zbase", some "mid", some "other", some "tip"] := by decide +kernel

example : ((run create exOps).bind index).map
    (fun r => r.2.frames.map (fun e => e.map (fun e => e.parentId))) =
    some [some (-1), some 0, some 0, some 1] := by decide +kernel

example : ((run create exOps).bind index).map
    (fun r => r.2.frames.map (fun e => e.map (fun e => e.configIndex))) =
    some [some none, some (some 0), some (some 1), some (some 1)] := by decide +kernel

example : Forest (contents exOps) ∧ contents exOps "" = none := by
  have key : ∀ p n, IsParent (contents exOps) p n →
      (n = "tip" ∧ p = "mid") ∨ (n = "mid" ∧ p = "zbase") ∨ (n = "other" ∧ p = "zbase") := by
    rintro p n ⟨h1, f, h2, rfl⟩
    simp only [contents, exOps, List.foldl_cons, List.foldl_nil, fr] at h2
    split_ifs at h2 with a1 a2 a3 a4
    all_goals
      simp only [Option.some.injEq] at h2
      try subst h2
      try simp_all
  have trans : ∀ p n, Relation.TransGen (IsParent (contents exOps)) p n →
      (n = "tip" ∧ (p = "mid" ∨ p = "zbase")) ∨ (n = "mid" ∧ p = "zbase") ∨
        (n = "other" ∧ p = "zbase") := by
    intro p n h
    induction h with
    | single h =>
      rcases key _ _ h with ⟨rfl, rfl⟩ | ⟨rfl, rfl⟩ | ⟨rfl, rfl⟩ <;> decide
    | tail _ h ih =>
      rcases key _ _ h with ⟨rfl, rfl⟩ | ⟨rfl, rfl⟩ | ⟨rfl, rfl⟩ <;>
      rcases ih with ⟨h1, h2⟩ | ⟨h1, h2⟩ | ⟨h1, h2⟩ <;> simp_all
  refine ⟨fun n h => ?_, by decide⟩
  rcases trans n n h with ⟨rfl, h | h⟩ | ⟨rfl, h⟩ | ⟨rfl, h⟩ <;> revert h <;> decide

/-- A missing parent is reported. -/
example : ((run create [Op.add (fr "a" "nowhere" Kind.fixed "")]).bind index).map (·.1) =
    some Status.invalidFrame := by decide +kernel

/-- C49 fails for a frame called `""`: `aa_rx_sg_init` returns success with one frame index, but
the entry is a null pointer (`aa_rx_sg_frame_name` dereferences it) and the name maps to the root. -/
theorem C49_violates_empty_name :
    ∃ g g' : Graph Unit, run create [Op.add (fr "" "" Kind.fixed "")] = some g ∧
      index g = some (Status.ok, g') ∧ frameCount g' = 1 ∧ frameName g' 0 = none ∧
      frameId g' "" = frameRoot := by
  refine ⟨_, _, rfl, rfl, ?_⟩
  decide +kernel

/-- C49 fails for a new scene graph: `aa_rx_sg_init` returns success, but the number of
configurations is indeterminate because the constructor does not set it and the early return skips
the code that does. -/
theorem C49_violates_new_graph :
    ∃ g' : Graph Unit, index create = some (Status.ok, g') ∧ configCount g' = none :=
  ⟨_, rfl, rfl⟩

/-- Outside the forests: a cycle of parents is accepted and leaves a frame whose parent id is
`AA_RX_FRAME_NONE`. -/
theorem C49_cycle_accepted :
    ∃ g g' : Graph Unit, run create [Op.add (fr "a" "b" Kind.fixed ""),
        Op.add (fr "b" "a" Kind.fixed "")] = some g ∧
      index g = some (Status.ok, g') ∧ frameParent g' (frameId g' "b") = some frameNone := by
  refine ⟨_, _, rfl, rfl, ?_⟩
  decide +kernel

/-- `aa_rx_sg_config_name` checks the id against the number of frames: with one fixed frame and no
configuration, id 0 reads past the end of the empty name table. -/
theorem C49_violates_config_name :
    ∃ g g' : Graph Unit, run create [Op.add (fr "a" "" Kind.fixed "")] = some g ∧
      index g = some (Status.ok, g') ∧ configCount g' = some 0 ∧ configName g' 0 = none := by
  refine ⟨_, _, rfl, rfl, ?_⟩
  decide +kernel

end Verif.Sg
