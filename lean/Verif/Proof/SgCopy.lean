import Verif.Model.SgCopy
import Verif.Proof.SgIndex

/-! Lemmas about copying a scene graph: indexing does not look at the payload of the frames. -/

namespace Verif.Sg

variable {P Q : Type}

/-- A change of payload. -/
structure Same (φ : Frame P → Frame Q) : Prop where
  name : ∀ f, (φ f).name = f.name
  parent : ∀ f, (φ f).parent = f.parent
  kind : ∀ f, (φ f).kind = f.kind
  config : ∀ f, (φ f).config = f.config

/-- An entry with another payload. -/
def mapE (φ : Frame P → Frame Q) (e : Entry P) : Entry Q := ⟨φ e.frame, e.parentId, e.configIndex⟩

/-- A graph with another payload. -/
def mapG (φ : Frame P → Frame Q) (g : Graph P) : Graph Q :=
  ⟨g.map.map φ, g.frames.map (Option.map (mapE φ)), g.configMap, g.configRmap, g.configSize, g.dirty⟩

/-- The state of the numbering loop with another payload. -/
def mapN (φ : Frame P → Frame Q) (s : NumSt P) : NumSt Q :=
  ⟨s.entries.map (mapE φ), s.configSet, s.configRmap, s.configMap, s.configSize⟩

section
variable {φ : Frame P → Frame Q} (hφ : Same φ)
include hφ

theorem find_mapF (m : List (Frame P)) (n : String) : find (m.map φ) n = (find m n).map φ := by
  unfold find
  rw [List.find?_map]
  congr 1
  congr 1
  funext f
  simp [hφ.name]

theorem sortHelper_map (m : List (Frame P)) : ∀ (k : Nat) (n : String) (l : List (Frame P))
    (v : List String), sortHelper (m.map φ) k n (l.map φ, v) =
      (sortHelper m k n (l, v)).map (fun t => (t.1.map φ, t.2)) := by
  intro k
  induction k with
  | zero => intro n l v; rfl
  | succ k ih =>
    intro n l v
    unfold sortHelper
    simp only
    split_ifs
    · rfl
    · rw [find_mapF hφ]
      cases find m n with
      | none => rfl
      | some f =>
        simp only [Option.map_some, hφ.parent]
        rw [ih]
        cases sortHelper m k f.parent (l, n :: v) with
        | none => rfl
        | some t => simp

theorem sortAll_map (m : List (Frame P)) : ∀ (fs l : List (Frame P)) (v : List String),
    sortAll (m.map φ) (fs.map φ) (l.map φ, v) =
      (sortAll m fs (l, v)).map (fun t => (t.1.map φ, t.2)) := by
  intro fs
  induction fs with
  | nil => intro l v; rfl
  | cons f fs ih =>
    intro l v
    simp only [List.map_cons, sortAll, hφ.name, List.length_map]
    rw [sortHelper_map hφ]
    cases sortHelper m (m.length + 1) f.name (l, v) with
    | none => rfl
    | some t => obtain ⟨a, b⟩ := t; exact ih a b

theorem curId_map (es : List (Entry P)) (n : String) : curId (es.map (mapE φ)) n = curId es n := by
  unfold curId
  rw [List.findIdx?_map]
  have : ((fun e : Entry Q => decide (e.frame.name = n)) ∘ mapE φ) =
      fun e : Entry P => decide (e.frame.name = n) := by
    funext e; simp [mapE, hφ.name]
  rw [this]

theorem inGlobal_map (f : Frame P) : (φ f).inGlobal = f.inGlobal := by
  simp [Frame.inGlobal, hφ.parent]

theorem numStep_map (s : NumSt P) (f : Frame P) :
    numStep (mapN φ s) (φ f) = mapN φ (numStep s f) := by
  have e1 : (if (φ f).inGlobal then frameRoot else curId (mapN φ s).entries (φ f).parent) =
      if f.inGlobal then frameRoot else curId s.entries f.parent := by
    rw [inGlobal_map hφ, hφ.parent]
    show (if f.inGlobal then frameRoot else curId (s.entries.map (mapE φ)) f.parent) = _
    rw [curId_map hφ]
  unfold numStep
  simp only [e1, hφ.kind, hφ.config]
  by_cases hc : f.config ∈ s.configSet <;> cases f.kind <;> simp [mapN, mapE, hc]

theorem foldl_numStep_map (l : List (Frame P)) (s : NumSt P) :
    (l.map φ).foldl numStep (mapN φ s) = mapN φ (l.foldl numStep s) := by
  induction l generalizing s with
  | nil => rfl
  | cons f l ih => simp only [List.map_cons, List.foldl_cons, numStep_map hφ, ih]

theorem parentsOk_map (m : List (Frame P)) : parentsOk (m.map φ) = parentsOk m := by
  unfold parentsOk
  rw [List.all_map]
  congr 1
  funext f
  simp [inGlobal_map hφ, hφ.parent, find_mapF hφ]

/-- Indexing commutes with a change of payload. -/
theorem index_map (g : Graph P) : index (mapG φ g) = (index g).map (fun r => (r.1, mapG φ r.2)) := by
  unfold index
  show (if !g.dirty then _ else if !parentsOk (g.map.map φ) then _ else
    match sortAll (g.map.map φ) (g.map.map φ) ([], []) with | none => none | some t => _) = _
  rw [parentsOk_map hφ]
  have hs := sortAll_map hφ g.map g.map [] []
  rw [List.map_nil] at hs
  rw [hs]
  split_ifs
  · rfl
  · rfl
  · cases sortAll g.map g.map ([], []) with
    | none => rfl
    | some t =>
      have h := foldl_numStep_map hφ t.1 ⟨[], [], [], [], 0⟩
      have h0 : mapN φ (⟨[], [], [], [], 0⟩ : NumSt P) = ⟨[], [], [], [], 0⟩ := rfl
      rw [h0] at h
      simp only [Option.map_some, h]
      simp [mapG, mapN, Function.comp_def]

/-! ## Queries -/

omit hφ in
theorem frameCount_map (g : Graph P) : frameCount (mapG φ g) = frameCount g := by
  simp [frameCount, mapG]

omit hφ in
theorem entry_map (g : Graph P) (id : Int) : entry (mapG φ g) id = (entry g id).map (mapE φ) := by
  unfold entry mapG
  split_ifs
  · rfl
  · simp only [List.getElem?_map]
    cases g.frames[id.toNat]? with
    | none => rfl
    | some e => cases e <;> rfl

theorem frameId_map (g : Graph P) (n : String) : frameId (mapG φ g) n = frameId g n := by
  unfold frameId
  show (if n = "" then _ else match find (g.map.map φ) n with | none => _ | some _ => _) = _
  rw [find_mapF hφ]
  split_ifs
  · rfl
  · cases find g.map n with
    | none => rfl
    | some f =>
      simp only [Option.map_some, mapG, List.findIdx?_map]
      have : ((fun e : Option (Entry Q) => e.any fun e => decide (e.frame.name = n)) ∘
          Option.map (mapE φ)) = fun e : Option (Entry P) => e.any fun e => decide (e.frame.name = n) := by
        funext e
        cases e with
        | none => rfl
        | some e => simp [mapE, hφ.name]
      rw [this]

theorem frameName_map (g : Graph P) (id : Int) : frameName (mapG φ g) id = frameName g id := by
  unfold frameName
  rw [frameCount_map, entry_map, Option.map_map]
  have : (fun e : Entry Q => e.frame.name) ∘ mapE φ = fun e : Entry P => e.frame.name := by
    funext e; exact hφ.name _
  rw [this]

omit hφ in
theorem frameParent_map (g : Graph P) (id : Int) : frameParent (mapG φ g) id = frameParent g id := by
  unfold frameParent
  rw [entry_map, Option.map_map]
  rfl

theorem frameType_map (g : Graph P) (id : Int) : frameType (mapG φ g) id = frameType g id := by
  unfold frameType
  rw [entry_map, Option.map_map]
  have : (fun e : Entry Q => e.frame.kind) ∘ mapE φ = fun e : Entry P => e.frame.kind := by
    funext e; exact hφ.kind _
  rw [this]

theorem frameConfig_map (g : Graph P) (id : Int) : frameConfig (mapG φ g) id = frameConfig g id := by
  unfold frameConfig
  rw [entry_map]
  cases entry g id with
  | none => rfl
  | some e =>
    simp only [Option.map_some, mapE, hφ.kind]

end

theorem configName_map (φ : Frame P → Frame Q) (g : Graph P) (id : Int) :
    configName (mapG φ g) id = configName g id := by
  unfold configName
  have : frameCount (mapG φ g) = frameCount g := by simp [frameCount, mapG]
  rw [this]
  rfl

/-! ## The frame map -/

/-- Two maps in name order with the same frames are equal. -/
theorem sorted_ext {m m' : List (Frame P)} (h : Sorted m) (h' : Sorted m')
    (hmem : ∀ x, x ∈ m ↔ x ∈ m') : m = m' := by
  have hp : m.Perm m' := by
    rw [List.perm_ext_iff_of_nodup (List.Nodup.of_map _ h.nodup) (List.Nodup.of_map _ h'.nodup)]
    exact hmem
  refine List.Perm.eq_of_pairwise (le := fun (f g : Frame P) => f.name < g.name) ?_ h h' hp
  intro a b _ _ h1 h2
  exact absurd (h1.trans h2) (lt_irrefl _)

/-- Adding a list of frames of distinct names. -/
theorem foldl_add (l : List (Frame P)) (d : Graph P) (hs : Sorted d.map) (hn : (names l).Nodup) :
    Sorted (l.foldl add d).map ∧
      (∀ x, x ∈ (l.foldl add d).map ↔ x ∈ l ∨ x ∈ d.map ∧ x.name ∉ names l) ∧
      (l ≠ [] → (l.foldl add d).dirty = true) ∧ (l.foldl add d).frames = d.frames ∧
      (l = [] → l.foldl add d = d) := by
  induction l generalizing d with
  | nil => exact ⟨hs, by simp, by simp, rfl, fun _ => rfl⟩
  | cons f l ih =>
    have hn' := List.nodup_cons.1 hn
    obtain ⟨h1, h2, h3, h4, h5⟩ := ih (add d f) (sorted_mapPut hs f) hn'.2
    refine ⟨h1, fun x => ?_, fun _ => ?_, h4, by simp⟩
    · show x ∈ (l.foldl add (add d f)).map ↔ _
      rw [h2]
      show x ∈ l ∨ x ∈ mapPut d.map f ∧ _ ↔ _
      rw [mem_mapPut hs]
      simp only [List.mem_cons, names, List.map_cons, not_or]
      constructor
      · rintro (h | ⟨rfl | ⟨h, h'⟩, h''⟩)
        · exact Or.inl (Or.inr h)
        · exact Or.inl (Or.inl rfl)
        · exact Or.inr ⟨h, h', h''⟩
      · rintro ((rfl | h) | ⟨h, h', h''⟩)
        · exact Or.inr ⟨Or.inl rfl, hn'.1⟩
        · exact Or.inl h
        · exact Or.inr ⟨Or.inr ⟨h, h'⟩, h''⟩
    · show (l.foldl add (add d f)).dirty = true
      by_cases hl : l = []
      · rw [h5 hl]; rfl
      · exact h3 hl

section
variable {G K : Type}

theorem copyFrames_eq (es : List (Entry (Obj G))) (d : Graph (Obj G)) :
    copyFrames (es.map some) d = some ((es.map (fun e => copyFrame e.frame)).foldl add d) := by
  induction es generalizing d with
  | nil => rfl
  | cons e es ih => simp only [List.map_cons, copyFrames, List.foldl_cons, ih]

/-- A frame with geometries appended. -/
def withGeoms (f : Frame (Obj G)) (xs : List G) : Frame (Obj G) :=
  { f with body := { f.body with geoms := f.body.geoms ++ xs } }

theorem addGeoms_eq (n : String) (xs : List G) (d : Graph (Obj G)) (hs : Sorted d.map)
    (f : Frame (Obj G)) (hf : f ∈ d.map) (hn : f.name = n) :
    ∃ d', addGeoms n xs d = some d' ∧ Sorted d'.map ∧ d'.dirty = d.dirty ∧ d'.frames = d.frames ∧
      ∀ x, x ∈ d'.map ↔ x = withGeoms f xs ∨ x ∈ d.map ∧ x.name ≠ n := by
  induction xs generalizing d f with
  | nil =>
    refine ⟨d, rfl, hs, rfl, rfl, fun x => ?_⟩
    have : withGeoms f [] = f := by simp [withGeoms]
    rw [this]
    constructor
    · intro hx
      by_cases h : x.name = n
      · exact Or.inl (eq_of_name hs.nodup hx hf (h.trans hn.symm))
      · exact Or.inr ⟨hx, h⟩
    · rintro (rfl | ⟨hx, -⟩)
      · exact hf
      · exact hx
  | cons a xs ih =>
    subst hn
    have hfind := find_eq hs.nodup hf
    set f1 : Frame (Obj G) := withGeoms f [a] with hf1
    set d1 : Graph (Obj G) := { d with map := mapPut d.map f1 } with hd1
    have h0 : addGeom d f.name a = some d1 := by
      unfold addGeom; rw [hfind]; rfl
    have hmem : f1 ∈ d1.map := (mem_mapPut hs f1 f1).2 (Or.inl rfl)
    obtain ⟨d', h1, h2, h3, h4, h5⟩ := ih d1 (sorted_mapPut hs f1) f1 hmem rfl
    refine ⟨d', ?_, h2, h3, h4, fun x => ?_⟩
    · unfold addGeoms; rw [h0]; exact h1
    · rw [h5]
      have hw : withGeoms f1 xs = withGeoms f (a :: xs) := by
        simp [hf1, withGeoms]
      rw [hw]
      show _ ∨ x ∈ mapPut d.map f1 ∧ _ ↔ _
      rw [mem_mapPut hs]
      constructor
      · rintro (h | ⟨rfl | ⟨h, -⟩, h'⟩)
        · exact Or.inl h
        · exact absurd rfl h'
        · exact Or.inr ⟨h, h'⟩
      · rintro (h | ⟨h, h'⟩)
        · exact Or.inl h
        · exact Or.inr ⟨Or.inr ⟨h, h'⟩, h'⟩

/-- The frame that the copy has for a frame of the original. -/
noncomputable def cp (f : Frame (Obj G)) : Frame (Obj G) := withGeoms (copyFrame f) f.body.geoms

theorem same_cp : Same (cp : Frame (Obj G) → Frame (Obj G)) :=
  ⟨fun _ => rfl, fun _ => rfl, fun _ => rfl, fun _ => rfl⟩

theorem copyGeoms_eq (es : List (Entry (Obj G))) (d : Graph (Obj G)) (hs : Sorted d.map)
    (hn : (es.map (fun e => e.frame.name)).Nodup) (hd : ∀ e ∈ es, copyFrame e.frame ∈ d.map) :
    ∃ d', copyGeoms (es.map some) d = some d' ∧ Sorted d'.map ∧ d'.dirty = d.dirty ∧
      d'.frames = d.frames ∧
      ∀ x, x ∈ d'.map ↔ (∃ e ∈ es, x = cp e.frame) ∨
        x ∈ d.map ∧ x.name ∉ es.map (fun e => e.frame.name) := by
  induction es generalizing d with
  | nil => exact ⟨d, rfl, hs, rfl, rfl, by simp⟩
  | cons e es ih =>
    have hn' := List.nodup_cons.1 hn
    obtain ⟨d1, h1, h2, h3, h4, h5⟩ := addGeoms_eq e.frame.name e.frame.body.geoms d hs
      (copyFrame e.frame) (hd e List.mem_cons_self) rfl
    obtain ⟨d', k1, k2, k3, k4, k5⟩ := ih d1 h2 hn'.2 (by
      intro e' he'
      rw [h5]
      refine Or.inr ⟨hd e' (List.mem_cons_of_mem _ he'), ?_⟩
      intro h
      exact hn'.1 (by
        show e.frame.name ∈ _
        rw [← h]
        exact List.mem_map_of_mem (f := fun e : Entry (Obj G) => e.frame.name) he'))
    refine ⟨d', ?_, k2, k3.trans h3, k4.trans h4, fun x => ?_⟩
    · simp only [List.map_cons, copyGeoms, h1, k1]
    · rw [k5, h5]
      simp only [List.map_cons, List.mem_cons, not_or, exists_eq_or_imp]
      constructor
      · rintro (h | ⟨rfl | ⟨h, h'⟩, h''⟩)
        · exact Or.inl (Or.inr h)
        · exact Or.inl (Or.inl rfl)
        · exact Or.inr ⟨h, h', h''⟩
      · rintro ((rfl | h) | ⟨h, h', h''⟩)
        · exact Or.inr ⟨Or.inl rfl, hn'.1⟩
        · exact Or.inl h
        · exact Or.inr ⟨Or.inr ⟨h, h'⟩, h''⟩

/-- A successful indexing of a dirty graph depends on the map only. -/
theorem index_congr {g d g' : Graph P} (hg : g.dirty = true) (hd : d.dirty = true)
    (hm : d.map = g.map) (hi : index g = some (Status.ok, g')) : index d = some (Status.ok, g') := by
  unfold index at hi ⊢
  rw [hg] at hi
  rw [hd, hm]
  simp only [Bool.not_true, Bool.false_eq_true, if_false] at hi ⊢
  split_ifs at hi ⊢ with h1
  · simp at hi
  · cases hs : sortAll g.map g.map ([], []) with
    | none => rw [hs] at hi; simp at hi
    | some t =>
      rw [hs] at hi
      simp only at hi ⊢
      rw [← hi]

/-- The copy of a clean graph. -/
theorem sgCopy_eq {s : LGraph (Obj G) K} {st : NumSt (Obj G)} (hr : Reach s.g)
    (hd : s.g.dirty = false) (hix : Indexed s.g st) (hne : s.g.map ≠ [] ∨ s.g = create) :
    sgCopy s = some ⟨mapG cp s.g, s.heap, s.lmap, s.g.configRmap.map s.lmap⟩ := by
  classical
  by_cases hc : s.g = create
  · unfold sgCopy
    rw [if_neg (by rw [hd]; simp), hc]
    rfl
  have hmap := hne.resolve_right hc
  obtain ⟨g0, hd0, hm0, hi0⟩ := (hr.clean hd).resolve_left hc
  have hperm := hix.perm
  have hnod : (st.entries.map (fun e => e.frame.name)).Nodup := by
    have := (hperm.map (fun f : Frame (Obj G) => f.name)).nodup_iff.2 hix.nodup
    rwa [List.map_map] at this
  have hes : st.entries ≠ [] := by
    intro h
    rw [h] at hperm
    exact hmap (List.nil_perm.1 (by simpa using hperm))
  obtain ⟨a1, a2, a3, a4, -⟩ := foldl_add (st.entries.map (fun e => copyFrame e.frame))
    (create : Graph (Obj G)) (by simp [create, Sorted])
    (by unfold names; rw [List.map_map]; exact hnod)
  obtain ⟨d', b1, b2, b3, b4, b5⟩ := copyGeoms_eq st.entries _ a1 hnod (by
    intro e he
    rw [a2]
    exact Or.inl (List.mem_map_of_mem (f := fun e : Entry (Obj G) => copyFrame e.frame) he))
  have hmem : d'.map = (mapG cp g0).map := by
    refine sorted_ext b2 ?_ ?_
    · show List.Pairwise _ (g0.map.map cp)
      rw [List.pairwise_map, hm0]
      exact hr.sorted
    · intro x
      rw [b5, a2]
      show _ ↔ x ∈ g0.map.map cp
      rw [hm0]
      constructor
      · rintro (⟨e, he, rfl⟩ | ⟨h | h, h'⟩)
        · exact List.mem_map_of_mem (hperm.mem_iff.1
            (List.mem_map_of_mem (f := fun e : Entry (Obj G) => e.frame) he))
        · obtain ⟨e, he, rfl⟩ := List.mem_map.1 h
          exact absurd (List.mem_map_of_mem (f := fun e : Entry (Obj G) => e.frame.name) he) h'
        · simp [create] at h
      · intro h
        obtain ⟨f, hf, rfl⟩ := List.mem_map.1 h
        obtain ⟨e, he, rfl⟩ := List.mem_map.1 (hperm.mem_iff.2 hf)
        exact Or.inl ⟨e, he, rfl⟩
  have hdirty : d'.dirty = true := by
    rw [b3]
    exact a3 (by simpa using hes)
  have hidx : index d' = some (Status.ok, mapG cp s.g) := by
    refine index_congr (g := mapG cp g0) hd0 hdirty hmem ?_
    rw [index_map same_cp, hi0]
    rfl
  unfold sgCopy
  rw [if_neg (by rw [hd]; simp), hix.frames, copyFrames_eq]
  simp only [b1, lindex, hidx, hdirty, true_and, if_true, Option.map_some]
  rfl

end

end Verif.Sg
