import Verif.Proof.PySg

/-!
# C125: names, ids, configurations and forward kinematics of Python scene graphs

A scene is specified by the list `ns` of the names of its frames and the list `cs` of the names of
its configuration variables, both without repetition: the id of a frame or variable is its position.
-/

namespace Verif.PySg

open Verif.Sg Verif.Tf

variable {P K : Type}

/-- A scene made in Python: frames were added and removed, then `init` was called; the frames form a
forest, every parent is there, and no frame has the name `""` of the root. -/
structure Scene (os : List (Op P)) (g : Graph P) : Prop where
  forest : Forest (contents os)
  named : contents os "" = none
  parents : ∀ n f, contents os n = some f → f.parent ≠ "" → contents os f.parent ≠ none
  changed : ∃ n, (contents os n).isSome
  init : ∃ g0, run create os = some g0 ∧ init g0 = .ok g

/-- What is a frame: its id and its name, by what was given. -/
def frameSpec (ns : List String) : Key → Except Exc (Int × String)
  | .str n =>
    if n = "" then .ok (-1, "")
    else if n ∈ ns then .ok (ns.idxOf n, n) else .error .value
  | .int i =>
    if i = -1 then .ok (-1, "")
    else if 0 ≤ i then
      match ns[i.toNat]? with
      | some n => .ok (i, n)
      | none => .error .index
    else .error .index

/-- What is a configuration variable. -/
def configSpec (cs : List String) : Key → Except Exc (Int × String)
  | .str c => if c ∈ cs then .ok (cs.idxOf c, c) else .error .value
  | .int i =>
    if 0 ≤ i then
      match cs[i.toNat]? with
      | some c => .ok (i, c)
      | none => .error .index
    else .error .index

/-- A value or an exception. -/
def res {α β : Type} (f : α → β) : Except Exc α → Res β
  | .ok a => .ok (f a)
  | .error e => .exc e

theorem scene_named {os : List (Op P)} {g : Graph P} (h : Scene os g) :
    ∃ ns cs, Named os g ns cs := by
  obtain ⟨g0, hr, hi⟩ := h.init
  obtain ⟨st, g', h1, h2⟩ := C49_error_iff os g0 hr
  have hst : st = Status.ok := by
    cases st with
    | ok => rfl
    | invalidFrame =>
      obtain ⟨n, f, h3, h4, h5⟩ := h2.1 rfl
      exact absurd h5 (h.parents n f h3 h4)
  subst hst
  have : g' = g := by
    simpa [PySg.init, h1, Res.ofOption] using hi
  subst this
  refine named hr h.forest h.named (Or.inr ?_) h1
  obtain ⟨n, hn⟩ := h.changed
  obtain ⟨f, hf⟩ := Option.isSome_iff_exists.1 hn
  exact List.ne_nil_of_mem (contents_name hr hf).2

theorem idxOf_get {l : List String} {n : String} (h : n ∈ l) : l[l.idxOf n]? = some n := by
  rw [List.getElem?_eq_getElem (List.idxOf_lt_length_of_mem h), List.getElem_idxOf]

theorem idxOf_unique {l : List String} (hn : l.Nodup) {i : Nat} {n : String} (h : l[i]? = some n) :
    l.idxOf n = i := by
  have h1 := List.mem_of_getElem? h
  exact (List.getElem?_inj (List.idxOf_lt_length_of_mem h1) hn).1 ((idxOf_get h1).trans h.symm)

/-- The functions that take a name or an id of a frame give its id and its name, and raise for
anything else. -/
theorem frames_of {os : List (Op P)} {g : Graph P} {ns cs : List String} (h : Named os g ns cs)
    (k : Key) :
    ensureFrameId g k = res Prod.fst (frameSpec ns k) ∧
    ensureFrameName g k = res Prod.snd (frameSpec ns k) := by
  cases k with
  | str n =>
    by_cases h0 : n = ""
    · subst h0
      simp [ensureFrameId, ensureFrameName, frameSpec, res, PySg.frameId, frameRoot, frameNone]
    · by_cases hm : n ∈ ns
      · have hid := h.id _ _ (idxOf_get hm)
        have hne : ¬ ((ns.idxOf n : Int) = frameNone) := by unfold frameNone; omega
        simp [ensureFrameId, ensureFrameName, frameSpec, res, PySg.frameId, h0, hm, h.clean, hid,
          hne]
      · simp [ensureFrameId, ensureFrameName, frameSpec, res, PySg.frameId, h0, hm, h.clean,
          h.no n h0 hm]
  | int i =>
    by_cases h1 : i = -1
    · subst h1
      have hc : ¬ ((-1 : Int) ≥ (Sg.frameCount g : Int)) := by omega
      simp [ensureFrameId, ensureFrameName, frameSpec, res, PySg.frameName, PySg.frameCount,
        frameNone, clean_of h.clean, Sg.frameName, frameRoot, Res.ofOption]
      have hc' : ¬ ((Sg.frameCount g : Int) ≤ -1) := by omega
      simp [hc']
      omega
    · by_cases h0 : 0 ≤ i
      · obtain ⟨k, rfl⟩ := Int.eq_ofNat_of_zero_le h0
        cases hg : ns[k]? with
        | none =>
          have : ns.length ≤ k := List.getElem?_eq_none_iff.1 hg
          have hc : (k : Int) ≥ (PySg.frameCount g : Int) := by
            unfold PySg.frameCount; rw [h.count]; omega
          simp [ensureFrameId, ensureFrameName, frameSpec, res, hg, hc, h1]
        | some n =>
          have hlt : k < ns.length := (List.getElem?_eq_some_iff.1 hg).1
          have hc : ¬ ((k : Int) ≥ (PySg.frameCount g : Int)) := by
            unfold PySg.frameCount; rw [h.count]; omega
          have hc2 : ¬ ((k : Int) ≤ frameNone) := by unfold frameNone; omega
          have hc3 : ¬ ((k : Int) < frameNone) := by unfold frameNone; omega
          simp only [ensureFrameId, ensureFrameName, PySg.frameName, frameSpec, if_neg h1, if_pos h0,
            Int.toNat_natCast, hg, hc, hc2, hc3, or_self, if_false, clean_of h.clean, h.name k n hg,
            Res.ofOption, res, and_self]
      · have hc : i ≤ frameNone := by unfold frameNone; omega
        simp [ensureFrameId, ensureFrameName, frameSpec, res, hc, h1, h0]

/-- C125 (partial: `ensure_frame_id_actual` of the name of the root and `frame_name`, see
`C125_violates_actual` and `C125_violates_frame_name`): there is a list of the names of the frames, without
repetition, such that a frame is its position there; the root is -1 and `""`.  `ensure_frame_id` and
`ensure_frame_name` give the id and the name of what was given by name or id and raise for anything
else; `get_parent` names the parent of every frame and raises for the root. -/
theorem C125_frames_partial (os : List (Op P)) (g : Graph P) (hs : Scene os g) :
    ∃ ns : List String, ns.Nodup ∧ (∀ n, n ∈ ns ↔ (contents os n).isSome) ∧
      frameCount g = ns.length ∧
      (∀ k, ensureFrameId g k = res Prod.fst (frameSpec ns k) ∧
        ensureFrameName g k = res Prod.snd (frameSpec ns k) ∧
        (k ≠ .str "" → ensureFrameIdActual g k =
          match frameSpec ns k with
          | .ok (i, _) => if i = -1 then .exc .index else .ok i
          | .error e => .exc e)) ∧
      (∀ i, i ≠ -2 → frameName g i = res Prod.snd (frameSpec ns (.int i))) ∧
      (∀ k i n f, frameSpec ns k = .ok (i, n) → contents os n = some f →
        getParent g k = .ok f.parent) ∧
      (∀ k, frameSpec ns k = .ok (-1, "") → getParent g k = .exc .index) := by
  obtain ⟨ns, cs, h⟩ := scene_named hs
  refine ⟨ns, h.nodup, h.mem, h.count, fun k => ⟨(frames_of h k).1, (frames_of h k).2, fun hk => ?_⟩,
    fun i hi => ?_, fun k i n f hk hc => ?_, fun k hk => ?_⟩
  · rw [ensureFrameIdActual, (frames_of h k).1]
    cases k with
    | str n =>
      have hn : n ≠ "" := fun h => hk (by rw [h])
      by_cases hm : n ∈ ns
      · simp only [frameSpec, if_neg hn, if_pos hm, res, Res.ok_bind]
        rw [if_neg (by omega), if_neg (by omega)]
      · simp [frameSpec, if_neg hn, if_neg hm, res]
    | int i =>
      by_cases h1 : i = -1
      · simp [frameSpec, h1, res, notActual]
      · by_cases h0 : 0 ≤ i
        · simp only [frameSpec, if_neg h1, if_pos h0]
          cases ns[i.toNat]? with
          | none => simp [res]
          | some n => simp only [res, Res.ok_bind]; rw [if_neg (by omega), if_neg h1]
        · simp [frameSpec, h1, h0, res]
  · have h1 := (frames_of h (.int i)).2
    rw [← h1]
    simp only [ensureFrameName]
    have h2 : frameNone = -2 := rfl
    by_cases hc : i ≥ (PySg.frameCount g : Int) ∨ i ≤ frameNone
    · rw [if_pos hc, PySg.frameName, if_pos (by omega)]
    · rw [if_neg hc]
  · have hn : n ≠ "" := by rintro rfl; rw [hs.named] at hc; simp at hc
    have hid : Sg.frameId g n = i := by
      cases k with
      | str m =>
        simp only [frameSpec] at hk
        split_ifs at hk with h1 h2
        · simp only [Except.ok.injEq, Prod.mk.injEq] at hk
          exact absurd hk.2.symm hn
        · simp only [Except.ok.injEq, Prod.mk.injEq] at hk
          rw [← hk.1, ← hk.2]
          exact h.id _ _ (idxOf_get h2)
      | int j =>
        simp only [frameSpec] at hk
        split_ifs at hk with h1 h2
        · simp only [Except.ok.injEq, Prod.mk.injEq] at hk
          exact absurd hk.2.symm hn
        · cases hg : ns[j.toNat]? with
          | none => rw [hg] at hk; simp at hk
          | some m =>
            rw [hg] at hk
            simp only [Except.ok.injEq, Prod.mk.injEq] at hk
            rw [← hk.1, ← hk.2]
            rw [h.id _ _ hg, Int.toNat_of_nonneg h2]
    unfold getParent
    rw [(frames_of h k).1, hk]
    simp only [res, Res.ok_bind, clean_of h.clean]
    obtain ⟨h3, h4⟩ := h.parent n f hc
    rw [← hid, h3]
    simp only [Res.ofOption, Res.ok_bind]
    have h5 := (frames_of h (.int (Sg.frameId g f.parent))).2
    rw [h5]
    rcases h4 with h4 | h4
    · rw [h4]
      simp [Sg.frameId, frameRoot, frameSpec, res]
    · rw [h.id _ _ (idxOf_get h4)]
      simp only [frameSpec]
      rw [if_neg (by omega), if_pos (by omega), Int.toNat_natCast, idxOf_get h4]
      rfl
  · unfold getParent
    rw [(frames_of h k).1, hk]
    simp only [res, Res.ok_bind, clean_of h.clean]
    have : Sg.frameParent g (-1) = some frameNone := by simp [Sg.frameParent, frameRoot]
    rw [this]
    simp [Res.ofOption, ensureFrameName]

/-- C125 (partial: `ensure_config_name` of an id and `config_name` of an id out of range, see
`C125_violates_config_name` and `C125_violates_config_range`): a configuration variable is its
position in a list of names without repetition. -/
theorem C125_configs_partial (os : List (Op P)) (g : Graph P) (hs : Scene os g) :
    ∃ cs : List String, cs.Nodup ∧ (∀ c, c ∈ cs ↔ UsesConfig (contents os) c) ∧
      configCount g = .ok cs.length ∧
      (∀ k, ensureConfigId g k = res Prod.fst (configSpec cs k)) ∧
      (∀ c, ensureConfigName g (.str c) = res Prod.snd (configSpec cs (.str c))) ∧
      (∀ i p, configSpec cs (.int i) = .ok p → configName g i = .ok p.2) := by
  obtain ⟨ns, cs, h⟩ := scene_named hs
  have hcc : PySg.configCount g = .ok cs.length := by
    simp [PySg.configCount, clean_of h.clean, h.ccount, Res.ofOption]
  refine ⟨cs, h.cnodup, h.cmem, hcc, fun k => ?_, fun c => ?_, fun i p hp => ?_⟩
  · cases k with
    | str c =>
      by_cases hm : c ∈ cs
      · have hne : ¬ ((cs.idxOf c : Int) = configNone) := by unfold configNone; omega
        simp [ensureConfigId, configSpec, res, PySg.configId, clean_of h.clean, hm,
          h.cid _ _ (idxOf_get hm), hne]
      · simp [ensureConfigId, configSpec, res, PySg.configId, clean_of h.clean, hm, h.cno c hm]
    | int i =>
      simp only [ensureConfigId, hcc, Res.ok_bind, configSpec]
      by_cases h0 : 0 ≤ i
      · rw [if_pos h0]
        cases hg : cs[i.toNat]? with
        | none =>
          have := List.getElem?_eq_none_iff.1 hg
          rw [if_pos (by omega)]; rfl
        | some c =>
          have := (List.getElem?_eq_some_iff.1 hg).1
          rw [if_neg (by omega)]; rfl
      · rw [if_neg h0, if_pos (by omega)]; rfl
  · by_cases hm : c ∈ cs
    · have hne : ¬ ((cs.idxOf c : Int) = configNone) := by unfold configNone; omega
      simp [ensureConfigName, configSpec, res, PySg.configId, clean_of h.clean, hm,
        h.cid _ _ (idxOf_get hm), hne]
    · simp [ensureConfigName, configSpec, res, PySg.configId, clean_of h.clean, hm, h.cno c hm]
  · simp only [configSpec] at hp
    split_ifs at hp with h0
    cases hg : cs[i.toNat]? with
    | none => rw [hg] at hp; simp at hp
    | some c =>
      rw [hg] at hp
      simp only [Except.ok.injEq] at hp
      subst hp
      have := h.cname _ _ hg
      rw [Int.toNat_of_nonneg h0] at this
      simp [PySg.configName, clean_of h.clean, this, Res.ofOption]

/-! ## Configuration vectors -/

/-- The value a dictionary gives to a name. -/
def item (l : List (String × K)) (c : String) : Option K := (l.find? (fun p => p.1 = c)).map (·.2)

/-- The vector `v` with the items of a dictionary in place of its elements. -/
def Filled (cs : List String) (l : List (String × K)) (v w : List K) : Prop :=
  w.length = v.length ∧
    ∀ (i : Nat) c, cs[i]? = some c → w[i]? = (item l c).elim v[i]? some

theorem setKeys_ok {os : List (Op P)} {g : Graph P} {ns cs : List String} (h : Named os g ns cs) :
    ∀ (l : List (String × K)) (v : List K), v.length = cs.length → (∀ p ∈ l, p.1 ∈ cs) →
      (l.map Prod.fst).Nodup → ∃ w, setKeys g l v = (.ok (), w) ∧ Filled cs l v w := by
  intro l
  induction l with
  | nil => exact fun v _ _ _ => ⟨v, rfl, rfl, fun i c _ => by simp [item]⟩
  | cons p l ih =>
    intro v hv hl hn
    have hp := hl p (by simp)
    have hid := h.cid _ _ (idxOf_get hp)
    have hlt : cs.idxOf p.1 < cs.length := List.idxOf_lt_length_of_mem hp
    obtain ⟨w, h1, h2, h3⟩ := ih (v.set (cs.idxOf p.1) p.2) (by simpa using hv)
      (fun q hq => hl q (by simp [hq])) (by simpa using (List.nodup_cons.1 hn).2)
    refine ⟨w, ?_, by simpa using h2, fun i c hc => ?_⟩
    · simp only [setKeys, PySg.configId, clean_of h.clean, hid]
      rw [if_neg (by omega), Int.toNat_natCast]
      exact h1
    · rw [h3 i c hc]
      by_cases hpc : p.1 = c
      · subst hpc
        have hnot : item l p.1 = none := by
          simp only [item, Option.map_eq_none_iff, List.find?_eq_none, decide_eq_true_eq]
          intro q hq hqe
          simp only [List.map_cons, List.nodup_cons] at hn
          exact hn.1 (hqe ▸ List.mem_map_of_mem hq)
        have hii : cs.idxOf p.1 = i := idxOf_unique h.cnodup hc
        have : item (p :: l) p.1 = some p.2 := by simp [item]
        rw [hnot, this, ← hii]
        simp only [Option.elim]
        rw [List.getElem?_set_self (by omega)]
      · have hit : item (p :: l) c = item l c := by simp [item, hpc]
        rw [hit]
        cases hil : item l c with
        | some x => rfl
        | none =>
          simp only [Option.elim]
          rw [List.getElem?_set_ne]
          intro hii
          have h4 := idxOf_get hp
          rw [hii, hc] at h4
          exact hpc (by simpa using h4.symm)

theorem setKeys_bad {os : List (Op P)} {g : Graph P} {ns cs : List String} (h : Named os g ns cs) :
    ∀ (l : List (String × K)) (v : List K), v.length = cs.length → (∃ p ∈ l, p.1 ∉ cs) →
      (setKeys g l v).1 = .exc .index := by
  intro l
  induction l with
  | nil => rintro v _ ⟨p, hp, -⟩; simp at hp
  | cons p l ih =>
    intro v hv hl
    by_cases hp : p.1 ∈ cs
    · have hid := h.cid _ _ (idxOf_get hp)
      have hlt : cs.idxOf p.1 < cs.length := List.idxOf_lt_length_of_mem hp
      simp only [setKeys, PySg.configId, clean_of h.clean, hid]
      rw [if_neg (by omega)]
      refine ih _ (by simpa using hv) ?_
      obtain ⟨q, hq, hq2⟩ := hl
      rcases List.mem_cons.1 hq with rfl | hq
      · exact absurd hp hq2
      · exact ⟨q, hq, hq2⟩
    · simp only [setKeys, PySg.configId, clean_of h.clean, h.cno _ hp]
      rw [if_pos (by unfold configNone; omega)]

/-- C125 (partial: without a vector the length of a sequence is not checked, and a call that raises
may have changed the vector given, see `C125_violates_sequence` and `C125_violates_atomic`): a dictionary of
configuration variables gives the vector with its values at the places of the names and the
previous elements (zero without a vector) elsewhere; a name that is no configuration variable raises
`IndexError`; a sequence of the right length gives itself; `copy_config` checks the length. -/
theorem C125_vector_partial [Zero K] (os : List (Op P)) (g : Graph P) (hs : Scene os g) :
    ∃ cs : List String, cs.Nodup ∧ (∀ c, c ∈ cs ↔ UsesConfig (contents os) c) ∧
      (∀ l : List (String × K), (l.map Prod.fst).Nodup → (∀ p ∈ l, p.1 ∈ cs) →
        (∃ w, configVector0 g (.dict l) = .ok w ∧ copyConfig g (.dict l) = .ok w ∧
          Filled cs l (List.replicate cs.length 0) w) ∧
        ∀ v : List K, v.length = cs.length →
          ∃ w, configVector g (.dict l) v = (.ok w, w) ∧ Filled cs l v w) ∧
      (∀ l : List (String × K), (∃ p ∈ l, p.1 ∉ cs) →
        configVector0 g (.dict l) = .exc .index ∧ copyConfig g (.dict l) = .exc .index ∧
        ∀ v : List K, (configVector g (.dict l) v).1 = .exc .index) ∧
      (∀ (l : List (String × K)) (v : List K), v.length ≠ cs.length →
        configVector g (.dict l) v = (.exc .index, v)) ∧
      (∀ l : List K, l.length = cs.length → configVector0 g (.seq l) = .ok l ∧
        copyConfig g (.seq l) = .ok l) ∧
      (∀ l : List K, l.length ≠ cs.length → copyConfig g (.seq l) = .exc .index) ∧
      (∀ l v : List K, configVector g (.seq l) v =
        if l.length = v.length then (.ok l, l) else (.exc .index, v)) := by
  obtain ⟨ns, cs, h⟩ := scene_named hs
  have hcc : PySg.configCount g = .ok cs.length := by
    simp [PySg.configCount, clean_of h.clean, h.ccount, Res.ofOption]
  have hdict : ∀ (l : List (String × K)) (v : List K), v.length = cs.length →
      configVector g (.dict l) v = setDict g l v := by
    intro l v hv
    simp only [configVector, hcc]
    rw [if_neg (not_not.2 hv)]
  refine ⟨cs, h.cnodup, h.cmem, fun l hn hl => ⟨?_, fun v hv => ?_⟩, fun l hl => ⟨?_, ?_, fun v => ?_⟩,
    fun l v hv => ?_, fun l hl => ⟨rfl, ?_⟩, fun l hl => ?_, fun l v => ?_⟩
  · obtain ⟨w, h1, h2⟩ := setKeys_ok h l (List.replicate cs.length 0) (by simp) hl hn
    refine ⟨w, ?_, ?_, h2⟩
    · simp [configVector0, hcc, setDict, h1]
    · simp only [copyConfig, hcc, Res.ok_bind]
      rw [hdict _ _ (by simp)]
      simp [setDict, h1]
  · obtain ⟨w, h1, h2⟩ := setKeys_ok h l v hv hl hn
    refine ⟨w, ?_, h2⟩
    rw [hdict _ _ hv]
    simp [setDict, h1]
  · simp [configVector0, hcc, setDict, setKeys_bad h l (List.replicate cs.length 0) (by simp) hl]
  · simp only [copyConfig, hcc, Res.ok_bind]
    rw [hdict _ _ (by simp)]
    simp [setDict, setKeys_bad h l (List.replicate cs.length 0) (by simp) hl]
  · by_cases hv : v.length = cs.length
    · rw [hdict _ _ hv]
      simp [setDict, setKeys_bad h l v hv hl]
    · simp [configVector, hcc, hv]
  · simp [configVector, hcc, hv]
  · simp [copyConfig, hcc, configVector, hl]
  · simp [copyConfig, hcc, configVector, Ne.symm hl]
  · simp only [configVector]
    by_cases he : l.length = v.length
    · rw [if_neg (by simp [he]), if_pos he]
    · rw [if_pos (Ne.symm he), if_neg he]

theorem dictLoop_eq {os : List (Op P)} {g : Graph P} {ns cs : List String} (h : Named os g ns cs)
    (v : List K) (hv : v.length = cs.length) :
    ∀ m i, i + m = cs.length →
      dictLoop g v m i ((cs.zip v).take i) = .ok (cs.zip v) := by
  intro m
  induction m with
  | zero =>
    intro i hi
    simp only [dictLoop]
    rw [List.take_of_length_le (by simp; omega)]
  | succ m ih =>
    intro i hi
    have hlt : i < cs.length := by omega
    have hc := List.getElem?_eq_getElem hlt
    have hx := List.getElem?_eq_getElem (show i < v.length by omega)
    simp only [dictLoop, PySg.configName, clean_of h.clean, h.cname i _ hc, Res.ofOption,
      Res.ok_bind, hx]
    have hnot : ((cs.zip v).take i).any (fun p => p.1 = cs[i]) = false := by
      rw [List.any_eq_false]
      intro p hp
      simp only [decide_eq_true_eq]
      intro he
      obtain ⟨j, hj⟩ := List.mem_iff_getElem?.1 hp
      rw [List.getElem?_take] at hj
      split_ifs at hj with hji
      have hz : (cs.zip v)[j]? = some (cs[j], v[j]) := by
        rw [List.getElem?_eq_getElem (by simp; omega), List.getElem_zip]
      rw [hz] at hj
      simp only [Option.some.injEq] at hj
      rw [← hj] at he
      have := (List.Nodup.getElem_inj_iff h.cnodup).1 he
      omega
    rw [hnot]
    have : (cs.zip v).take i ++ [(cs[i], v[i])] = (cs.zip v).take (i + 1) := by
      rw [List.take_add_one, List.getElem?_eq_getElem (show i < (cs.zip v).length by simp; omega),
        List.getElem_zip]
      rfl
    simp only [Bool.false_eq_true, if_false]
    rw [this]
    exact ih (i + 1) (by omega)

/-- C125: `config_dict` of a configuration is the dictionary from names to elements, and
`config_vector` takes it back to the configuration. -/
theorem C125_dict [Zero K] (os : List (Op P)) (g : Graph P) (hs : Scene os g) (v : List K) (n : Nat)
    (hn : configCount g = .ok n) (hv : v.length = n) :
    ∃ l, configDict g v = .ok l ∧ (∀ c, c ∈ l.map Prod.fst ↔ UsesConfig (contents os) c) ∧
      (l.map Prod.fst).Nodup ∧
      (∀ c i, configId g c = .ok (i : Nat) → item l c = v[i]?) ∧
      configVector0 g (.dict l) = .ok v ∧
      ∀ w : List K, w.length = n → configVector g (.dict l) w = (.ok v, v) := by
  obtain ⟨ns, cs, h⟩ := scene_named hs
  have hcc : PySg.configCount g = .ok cs.length := by
    simp [PySg.configCount, clean_of h.clean, h.ccount, Res.ofOption]
  rw [hcc] at hn
  obtain rfl : cs.length = n := by simpa using hn
  have hfst : (cs.zip v).map Prod.fst = cs := by
    rw [List.map_fst_zip (by omega)]
  have hitem : ∀ (i : Nat) c, cs[i]? = some c → item (cs.zip v) c = v[i]? := by
    intro i c hc
    have hlt : i < cs.length := (List.getElem?_eq_some_iff.1 hc).1
    have hci : cs[i] = c := (List.getElem?_eq_some_iff.1 hc).2
    have hz : (cs.zip v)[i]? = some (c, v[i]) := by
      rw [List.getElem?_eq_getElem (by simp; omega), List.getElem_zip, hci]
    unfold item
    cases hf : (cs.zip v).find? (fun p => p.1 = c) with
    | none =>
      rw [List.find?_eq_none] at hf
      have := hf _ (List.mem_of_getElem? hz)
      simp at this
    | some p =>
      have h1 := List.find?_some hf
      simp only [decide_eq_true_eq] at h1
      obtain ⟨j, hj⟩ := List.mem_iff_getElem?.1 (List.mem_of_find?_eq_some hf)
      have hjl := (List.getElem?_eq_some_iff.1 hj).1
      have hjc : j < cs.length := by simp at hjl; omega
      rw [List.getElem?_eq_getElem hjl, List.getElem_zip] at hj
      simp only [Option.some.injEq] at hj
      have h2 : cs[j] = cs[i] := by rw [hci, ← h1, ← hj]
      have := (List.Nodup.getElem_inj_iff h.cnodup).1 h2
      subst this
      rw [← hj, List.getElem?_eq_getElem (by omega)]
      rfl
  have hfill : ∀ w w' : List K, w.length = cs.length → Filled cs (cs.zip v) w w' → w' = v := by
    rintro w w' hw ⟨h1, h2⟩
    apply List.ext_getElem?
    intro i
    by_cases hi : i < cs.length
    · rw [h2 i _ (List.getElem?_eq_getElem hi), hitem i _ (List.getElem?_eq_getElem hi),
        List.getElem?_eq_getElem (show i < v.length by omega)]
      rfl
    · rw [List.getElem?_eq_none (by omega), List.getElem?_eq_none (by omega)]
  have hmem : ∀ p ∈ cs.zip v, p.1 ∈ cs := fun p hp => hfst ▸ List.mem_map_of_mem hp
  have hnd : ((cs.zip v).map Prod.fst).Nodup := by rw [hfst]; exact h.cnodup
  refine ⟨cs.zip v, ?_, fun c => by rw [hfst]; exact h.cmem c, hnd, fun c i hi => ?_, ?_,
    fun w hw => ?_⟩
  · simp only [configDict, hcc, Res.ok_bind]
    have := dictLoop_eq h v hv cs.length 0 (by omega)
    simpa using this
  · simp only [PySg.configId, clean_of h.clean, Res.ok.injEq] at hi
    by_cases hc : c ∈ cs
    · rw [h.cid _ _ (idxOf_get hc)] at hi
      have : cs.idxOf c = i := by omega
      subst this
      exact hitem _ _ (idxOf_get hc)
    · rw [h.cno c hc] at hi
      unfold configNone at hi
      omega
  · obtain ⟨w, h1, h2⟩ := setKeys_ok h (cs.zip v) (List.replicate cs.length 0) (by simp) hmem hnd
    rw [hfill _ _ (by simp) h2] at h1
    simp [configVector0, hcc, setDict, h1]
  · obtain ⟨w', h1, h2⟩ := setKeys_ok h (cs.zip v) w hw hmem hnd
    rw [hfill _ _ hw h2] at h1
    simp only [configVector, hcc]
    rw [if_neg (not_not.2 hw)]
    simp [setDict, h1]

/-! ## Forward kinematics -/

/-- The pose of a frame at a configuration: the product of the joints along the path from the root;
the root is the identity (C50). -/
def Pose (os : List (Op Body)) (g : Graph Body) (q : List ℝ) (n : String) (E : Qutr) : Prop :=
  ∃ fs, IsPath (contents os) n fs ∧ (∀ fs', IsPath (contents os) n fs' → fs' = fs) ∧
    E = pathTf g (fun i => q.getD i 0) fs

/-- The object holds the poses of all frames at the configuration `q`. -/
def Holds (g : Graph Body) (q : List ℝ) (fk : Fk) : Prop :=
  fk.q = q ∧ ∃ A, Sg.fkAll g (fun i => q.getD i 0) 1 = some A ∧ A.length = frameCount g ∧
    fk.cols = A.map some

theorem fkSet_holds {os : List (Op Body)} {g : Graph Body} (hs : Scene os g) {n : Nat}
    (hn : configCount g = .ok n) {fk : Fk} (hl : fk.cols.length = frameCount g)
    {c : Cfg ℝ} {q : List ℝ} (hq : q.length = n) (hc : configVector g c fk.q = (.ok q, q)) :
    ∃ fk', fkSetConfig g fk c = (.ok (), fk') ∧ Holds g q fk' := by
  obtain ⟨g0, hr, hi⟩ := hs.init
  obtain ⟨st, g', h1, h2⟩ := C49_error_iff os g0 hr
  have hst : st = Status.ok := by
    cases st with
    | ok => rfl
    | invalidFrame =>
      obtain ⟨n, f, h3, h4, h5⟩ := h2.1 rfl
      exact absurd h5 (hs.parents n f h3 h4)
  subst hst
  have : g' = g := by
    simpa [PySg.init, h1, Res.ofOption] using hi
  subst this
  obtain ⟨-, A, h3, h4, -⟩ := C50_fk_partial os g0 g' hr hs.forest hs.named h1 (fun i => q.getD i 0)
  refine ⟨⟨A.map some, q⟩, ?_, rfl, A, h3, h4, rfl⟩
  have hd : fk.cols.drop A.length = [] := List.drop_of_length_le (by
    rw [h4, hl]; exact Nat.le_refl _)
  simp only [fkSetConfig, hc, PySg.fkAll, hn]
  rw [if_neg (not_not.2 hq.symm), if_neg (by omega)]
  simp only [h3, hd, List.append_nil]

theorem holds_pose {os : List (Op Body)} {g : Graph Body} (hs : Scene os g) {q : List ℝ} {fk : Fk}
    (hh : Holds g q fk) (n : String) (f : Frame Body) (hf : contents os n = some f) :
    ∃ E, fkCol fk (Sg.frameId g n) = .ok E ∧ Pose os g q n E ∧ 0 ≤ Sg.frameId g n ∧
      Sg.frameId g n < Sg.frameCount g := by
  obtain ⟨g0, hr, hi⟩ := hs.init
  obtain ⟨st, g', h1, h2⟩ := C49_error_iff os g0 hr
  have hst : st = Status.ok := by
    cases st with
    | ok => rfl
    | invalidFrame =>
      obtain ⟨n, f, h3, h4, h5⟩ := h2.1 rfl
      exact absurd h5 (hs.parents n f h3 h4)
  subst hst
  have : g' = g := by
    simpa [PySg.init, h1, Res.ofOption] using hi
  subst this
  obtain ⟨-, A, h3, h4, h5⟩ := C50_fk_partial os g0 g' hr hs.forest hs.named h1 (fun i => q.getD i 0)
  obtain ⟨-, A', h6, -, h7⟩ := hh
  rw [h3] at h6
  obtain rfl : A = A' := by simpa using h6
  obtain ⟨fs, hp, ha⟩ := h5 n f hf
  obtain ⟨h8, h9, -⟩ := (C49_order_partial os g0 g' hr hs.forest hs.named h1).1 n f hf
  refine ⟨_, ?_, ⟨fs, hp, fun fs' h' => h'.unique hp, rfl⟩, h8, h9⟩
  simp only [fkCol]
  rw [if_neg (by omega), h7, List.getElem?_map, ha]
  rfl

/-- C125 (partial: the key is not the root, see `C125_violates_fk_root`; `fk` was made for this
graph, see `C125_violates_fk_grown`; the configuration was set, see `C125_violates_fk_fresh`): for a
new object, or one made for the graph and set before, assigning a configuration (a sequence of all
elements, or a dictionary of configuration variables: the others keep their values) makes `config`
that configuration and makes `fk[k]` the pose of frame `k` there; `fk[a, b]` is the pose of `b`
relative to `a`, also for the root. -/
theorem C125_fk_partial (os : List (Op Body)) (g : Graph Body) (hs : Scene os g) (n : Nat)
    (hn : configCount g = .ok n) :
    (∃ fk, fkNew g = .ok fk ∧ fk.cols.length = frameCount g ∧ fk.q.length = n) ∧
    (∀ fk : Fk, fk.cols.length = frameCount g → fk.q.length = n →
      (∀ q : List ℝ, q.length = n →
        ∃ fk', fkSetConfig g fk (.seq q) = (.ok (), fk') ∧ Holds g q fk') ∧
      (∀ l : List (String × ℝ), (l.map Prod.fst).Nodup →
        (∀ p ∈ l, UsesConfig (contents os) p.1) →
        ∃ q fk', fkSetConfig g fk (.dict l) = (.ok (), fk') ∧ Holds g q fk' ∧ q.length = n ∧
          ∀ c i, configId g c = .ok (i : Nat) → q[i]? = (item l c).elim fk.q[i]? some)) ∧
    (∀ fk q, Holds g q fk → fk.cols.length = frameCount g ∧
      (∀ m f, contents os m = some f →
        ∃ E, Pose os g q m E ∧ fkItem g fk (.str m) = .ok E ∧
          ∀ i, ensureFrameId g (.int i) = .ok i → frameName g i = .ok m →
            fkItem g fk (.int i) = .ok E) ∧
      (∀ a b, (a = "" ∨ (contents os a).isSome) → (b = "" ∨ (contents os b).isSome) →
        ∃ A B, Pose os g q a A ∧ Pose os g q b B ∧
          fkItem2 g fk (.str a) (.str b) = .ok (qutrCmul A B) ∧
          (A.Valid → B.Valid → qutrMul A (qutrCmul A B) = B))) := by
  obtain ⟨ns, cs, h⟩ := scene_named hs
  have hcc : PySg.configCount g = .ok cs.length := by
    simp [PySg.configCount, clean_of h.clean, h.ccount, Res.ofOption]
  obtain rfl : cs.length = n := by rw [hcc] at hn; simpa using hn
  refine ⟨?_, fun fk hl hq => ⟨fun q hql => ?_, fun l hnd hu => ?_⟩, fun fk q hh => ⟨?_, ?_, ?_⟩⟩
  · simp only [fkNew, hn, Res.ok_bind]
    exact ⟨_, rfl, by simp, by simp⟩
  · refine fkSet_holds hs hn hl hql ?_
    simp only [configVector]
    rw [if_neg (by omega)]
  · obtain ⟨w, h1, h2, h3⟩ := setKeys_ok h l fk.q hq (fun p hp => (h.cmem _).2 (hu p hp)) hnd
    have hv : configVector g (.dict l) fk.q = (.ok w, w) := by
      simp only [configVector, hcc]
      rw [if_neg (not_not.2 hq)]
      simp [setDict, h1]
    obtain ⟨fk', h4, h5⟩ := fkSet_holds hs hn hl (by omega) hv
    refine ⟨w, fk', h4, h5, by omega, fun c i hi => ?_⟩
    simp only [PySg.configId, clean_of h.clean, Res.ok.injEq] at hi
    by_cases hc : c ∈ cs
    · rw [h.cid _ _ (idxOf_get hc)] at hi
      have : cs.idxOf c = i := by omega
      subst this
      exact h3 _ _ (idxOf_get hc)
    · rw [h.cno c hc] at hi
      unfold configNone at hi
      omega
  · obtain ⟨-, A, -, h2, h3⟩ := hh
    rw [h3, List.length_map, h2]
  · intro m f hf
    obtain ⟨E, h1, h2, h3, h4⟩ := holds_pose hs hh m f hf
    have hm : m ∈ ns := (h.mem m).2 (by rw [hf]; rfl)
    have hm0 : m ≠ "" := by rintro rfl; rw [hs.named] at hf; simp at hf
    have hid := h.id _ _ (idxOf_get hm)
    have hget : fkGetAbs g fk (Sg.frameId g m) = .ok E := by
      unfold fkGetAbs
      rw [if_neg (by unfold PySg.frameCount; omega)]
      exact h1
    refine ⟨E, h2, ?_, fun i hi hni => ?_⟩
    · rw [fkItem, (frames_of h _).1]
      simp only [frameSpec, if_neg hm0, if_pos hm, res, Res.ok_bind]
      rw [← hid]
      exact hget
    · rw [fkItem, hi, Res.ok_bind]
      have h5 := (frames_of h (.int i)).1
      rw [hi] at h5
      have h6 := (frames_of h (.int i)).2
      have h7 : ensureFrameName g (.int i) = frameName g i := by
        simp only [ensureFrameId] at hi
        simp only [ensureFrameName]
        split_ifs at hi with hc
        rw [if_neg hc]
      rw [h7, hni] at h6
      simp only [frameSpec] at h6
      split_ifs at h6 with c1 c2
      · simp only [res, Res.ok.injEq] at h6
        exact absurd h6 hm0
      · cases hg : ns[i.toNat]? with
        | none => rw [hg] at h6; simp [res] at h6
        | some n' =>
          rw [hg] at h6
          simp only [res, Res.ok.injEq] at h6
          subst h6
          have h8 := h.id _ _ hg
          rw [Int.toNat_of_nonneg c2] at h8
          rw [← h8]; exact hget
      · simp [res] at h6
  · have key : ∀ a, (a = "" ∨ (contents os a).isSome) → ∃ A i, Pose os g q a A ∧
        ensureFrameId g (.str a) = .ok i ∧
        (if i = frameRoot then Res.ok qutrident else fkCol fk i) = .ok A := by
      rintro a (rfl | ha)
      · refine ⟨qutrident, -1, ⟨[], IsPath.root, fun fs' h' => h'.unique IsPath.root, rfl⟩, ?_, ?_⟩
        · rw [(frames_of h _).1]; simp [frameSpec, res]
        · rw [if_pos (by decide)]
      · obtain ⟨f, hf⟩ := Option.isSome_iff_exists.1 ha
        obtain ⟨E, h1, h2, h3, h4⟩ := holds_pose hs hh a f hf
        have hm : a ∈ ns := (h.mem a).2 ha
        have hm0 : a ≠ "" := by rintro rfl; rw [hs.named] at hf; simp at hf
        refine ⟨E, Sg.frameId g a, h2, ?_, ?_⟩
        · rw [(frames_of h _).1]
          simp only [frameSpec, if_neg hm0, if_pos hm, res]
          rw [h.id _ _ (idxOf_get hm)]
        · rw [if_neg (by unfold frameRoot; omega)]
          exact h1
    intro a b ha hb
    obtain ⟨A, i, p1, i1, c1⟩ := key a ha
    obtain ⟨B, j, p2, i2, c2⟩ := key b hb
    refine ⟨A, B, p1, p2, ?_, fun va vb => ?_⟩
    · simp only [fkItem2, i1, i2, Res.ok_bind, fkGetRel]
      rw [c1, c2]
      rfl
    · exact (C27_relative.2.1 A B va vb).1

/-! ## What fails -/

/-- The scene made by a history. -/
def made (os : List (Op P)) : Res (Graph P) := (Res.ofOption (run create os)).bind init

/-- C125 fails: `ensure_config_name` of an id is the name of the frame with that number. -/
theorem C125_violates_config_name :
    (made exOps).bind (fun g => configName g 0) = .ok "q0" ∧
    (made exOps).bind (fun g => ensureConfigName g (.str "q0")) = .ok "q0" ∧
    (made exOps).bind (fun g => ensureConfigName g (.int 0)) = .ok "zbase" := by decide +kernel

/-- C125 fails: in a scene of four frames and two configuration variables `config_name(2)` reads
past the names, and other ids out of range have the name `NONE`. -/
theorem C125_violates_config_range :
    (made exOps).bind configCount = .ok 2 ∧
    (made exOps).bind (fun g => configName g 2) = .ub ∧
    (made exOps).bind (fun g => configName g 4) = .ok "NONE" ∧
    (made exOps).bind (fun g => configName g (-1)) = .ok "NONE" := by decide +kernel

/-- C125 fails: `frame_name(FRAME_NONE)` is `?`. -/
theorem C125_violates_frame_name (g : Graph P) (h : g.dirty = false) :
    frameName g (-2) = .ok "?" := by
  unfold PySg.frameName
  rw [if_neg (by unfold frameNone; omega), clean_of h]
  rfl

/-- C125 fails: `ensure_frame_id_actual("")` raises `TypeError`, not `IndexError`. -/
theorem C125_violates_actual (g : Graph P) : ensureFrameIdActual g (.str "") = .exc .type := by
  simp [ensureFrameIdActual, ensureFrameId, PySg.frameId, frameRoot, frameNone, notActual]

/-- C125 fails: `init` of a scene with a frame whose parent is missing raises nothing, and the next
question ends the process. -/
theorem C125_violates_init :
    ∃ g, made [Op.add (fr "a" "nowhere" Kind.fixed "")] = .ok g ∧
      configCount g = .abort ∧ ensureFrameName g (.str "a") = .stale ∧
      configVector0 g (.dict [("q", (1 : Int))]) = .abort := by
  refine ⟨_, rfl, ?_⟩
  decide +kernel

/-- C125 fails: without a vector, a sequence of any length is a configuration, and so is an integer,
taken for a length. -/
theorem C125_violates_sequence [Zero K] (g : Graph P) (l : List K) (n : Nat) :
    configVector0 g (.seq l) = .ok l ∧ configVector0 g (.size n) = .ok (List.replicate n (0 : K)) :=
  ⟨rfl, rfl⟩

/-- C125 fails: a dictionary that raises has already changed the vector. -/
theorem C125_violates_atomic :
    (made exOps).bind (fun g => .ok (configVector g (.dict [("q0", (1 : Int)), ("bad", 2)]) [0, 0])) =
      .ok (.exc .index, [1, 0]) := by decide +kernel

/-- C125 fails: the pose of the root ends the process. -/
theorem C125_violates_fk_root (g : Graph Body) (fk : Fk) :
    fkItem g fk (.str "") = .abort ∧ fkItem g fk (.int (-1)) = .abort := by
  constructor
  · simp [fkItem, ensureFrameId, PySg.frameId, frameRoot, frameNone, fkGetAbs]
  · simp only [fkItem, ensureFrameId]
    rw [if_neg (by unfold frameNone; omega), Res.ok_bind, fkGetAbs, if_pos (by omega)]

/-- C125 fails: the poses of a new object are read from memory never written. -/
theorem C125_violates_fk_fresh (os : List (Op Body)) (g : Graph Body) (hs : Scene os g) :
    ∃ fk, fkNew g = .ok fk ∧ ∀ n f, contents os n = some f → fkItem g fk (.str n) = .ub := by
  obtain ⟨ns, cs, h⟩ := scene_named hs
  have hcc : PySg.configCount g = .ok cs.length := by
    simp [PySg.configCount, clean_of h.clean, h.ccount, Res.ofOption]
  refine ⟨_, by simp only [fkNew, hcc, Res.ok_bind]; rfl, fun n f hf => ?_⟩
  have hm : n ∈ ns := (h.mem n).2 (by rw [hf]; rfl)
  have hm0 : n ≠ "" := by rintro rfl; rw [hs.named] at hf; simp at hf
  have hlt := List.idxOf_lt_length_of_mem hm
  rw [fkItem, (frames_of h _).1]
  simp only [frameSpec, if_neg hm0, if_pos hm, res, Res.ok_bind, fkGetAbs, fkCol]
  rw [if_neg (by unfold PySg.frameCount; rw [h.count]; omega), if_neg (by omega), Int.toNat_natCast,
    List.getElem?_replicate_of_lt (by unfold PySg.frameCount; rw [h.count]; exact hlt)]
  rfl

/-- C125 fails: after frames were added and `init` called again, assigning to `config` of an object
made before writes past its memory. -/
theorem C125_violates_fk_grown (g : Graph Body) (fk : Fk) (q : List ℝ)
    (hn : configCount g = .ok q.length) (hq : fk.q.length = q.length)
    (hl : fk.cols.length < frameCount g) : (fkSetConfig g fk (.seq q)).1 = .ub := by
  simp only [fkSetConfig, configVector]
  rw [if_neg (by omega)]
  simp only [PySg.fkAll, hn]
  rw [if_neg (by simp), if_pos hl]

/-- C125 fails: an assignment that raises changes `config` and not the poses. -/
theorem C125_violates_fk_exception :
    ∃ fk fk' : Fk, fkSetConfig fkGraph fk (.dict [("qa", 5), ("bad", 1)]) = (.exc .index, fk') ∧
      fk.q = [0, 0, 0] ∧ fk'.q = [5, 0, 0] ∧ fk'.cols = fk.cols :=
  ⟨⟨[none, none, none], [0, 0, 0]⟩, ⟨[none, none, none], [5, 0, 0]⟩, by
    simp [fkSetConfig, configVector, PySg.configCount, clean, fkGraph, Sg.configCount, Res.ofOption,
      setDict, setKeys, PySg.configId, Sg.configId, lookupConfig, configNone, Res.bind], rfl, rfl, rfl⟩

/-! ## Concrete cases -/

theorem fkOps_scene : Scene fkOps fkGraph := by
  obtain ⟨g, h1, h2, h3, h4⟩ := fkOps_ok
  refine ⟨h2, h3, fun n f hf hp => ?_, ⟨"a", rfl⟩, g, h1, ?_⟩
  · obtain ⟨st, g', h5, h6⟩ := C49_error_iff fkOps g h1
    rw [h4] at h5
    simp only [Option.some.injEq, Prod.mk.injEq] at h5
    intro hc
    have := h6.2 ⟨n, f, hf, hp, hc⟩
    rw [← h5.1] at this
    simp at this
  · simp [PySg.init, h4, Res.ofOption]

example : configCount fkGraph = .ok 3 ∧ frameCount fkGraph = 3 := ⟨rfl, rfl⟩

/-- The object of the sliding frames, after `fk.config = {"qc": 2}`. -/
example : ∃ fk fk' q E, fkNew fkGraph = .ok fk ∧ fkSetConfig fkGraph fk (.dict [("qc", 2)]) = (.ok (), fk') ∧
    Holds fkGraph q fk' ∧ q.length = 3 ∧ q[2]? = some 2 ∧ fkItem fkGraph fk' (.str "c") = .ok E ∧
    Pose fkOps fkGraph q "c" E := by
  obtain ⟨⟨fk, h1, h2, h3⟩, h4, h5⟩ := C125_fk_partial fkOps fkGraph fkOps_scene 3 rfl
  obtain ⟨q, fk', h6, h7, h8, h9⟩ := (h4 fk h2 h3).2 [("qc", 2)] (by simp) (by
    intro p hp
    simp only [List.mem_singleton] at hp
    subst hp
    exact ⟨"c", _, rfl, by simp [Frame.IsJoint], rfl⟩)
  obtain ⟨E, h10, h11, -⟩ := (h5 fk' q h7).2.1 "c" _ rfl
  exact ⟨fk, fk', q, E, h1, h6, h7, h8, h9 "qc" 2 rfl, h11, h10⟩

/-- An object made for fewer frames. -/
example : (fkSetConfig fkGraph ⟨[none], [0, 0, 0]⟩ (.seq [1, 2, 3])).1 = .ub :=
  C125_violates_fk_grown fkGraph _ _ rfl rfl (by decide)

example : (made exOps).bind (fun g => configDict g [(5 : Int), 6]) = .ok [("q0", 5), ("q1", 6)] ∧
    (made exOps).bind (fun g => getParent g (.str "tip")) = .ok "mid" ∧
    (made exOps).bind (fun g => getParent g (.int 0)) = .ok "" := by decide +kernel

end Verif.PySg
