import Verif.Proof.SgCopy
import Verif.Prop.SgLim
import Verif.Prop.SgAllow

/-!
# C82: a copy of a scene graph answers as the original

A frame object is a value here (`contents` holds the objects as they are when the graph is copied):
geometry that is attached to a frame and inertial data that are set for it are part of the object.
-/

namespace Verif.Sg

open Verif.Tf

variable {G K : Type}

/-- A body that a constructor of a frame has made. -/
def Made (b : Body) : Prop := ∃ q v offset axis, b = mkBody q v offset axis

theorem copy_state {os : List (LOp (Obj G) K)} {s : LGraph (Obj G) K}
    (hr : lrun lcreate os = some s) (hd : s.g.dirty = false) (hf : Forest (contents (sgOps os)))
    (he : contents (sgOps os) "" = none) (hne : s.g.map ≠ [] ∨ s.g = create) :
    ∃ st, LInv os s ∧ Indexed s.g st ∧
      sgCopy s = some ⟨mapG cp s.g, s.heap, s.lmap, s.g.configRmap.map s.lmap⟩ := by
  have i := lrun_inv linv_create hr
  rw [List.nil_append] at i
  have hreach := reach_run reach_create i.run
  have hnn : ∀ f ∈ s.g.map, f.name ≠ "" := by
    intro f hm h0
    rw [mem_map_iff i.run, h0, he] at hm
    simp at hm
  have hi : index s.g = some (Status.ok, s.g) := by simp [index, hd]
  obtain ⟨st, hs, -⟩ := reach_indexed hreach hi (forest_acyclic i.run hf) hnn
  exact ⟨st, i, hs, sgCopy_eq hreach hd hs hne⟩

/-! ## Theorems -/

/-- **C82**, frames, configurations and geometry: every query by name or number has the same
answer.  Missing: initialised graphs all of whose frames were removed
(`C82_violates_empty`), graphs with a cycle or with a frame of an empty name. -/
theorem C82_frames_partial (os : List (LOp (Obj G) K)) (s : LGraph (Obj G) K)
    (hr : lrun lcreate os = some s) (hd : s.g.dirty = false) (hf : Forest (contents (sgOps os)))
    (he : contents (sgOps os) "" = none) (hne : s.g.map ≠ [] ∨ s.g = create) :
    ∃ c, sgCopy s = some c ∧ c.g.dirty = false ∧
      frameCount c.g = frameCount s.g ∧ configCount c.g = configCount s.g ∧
      (∀ n, frameId c.g n = frameId s.g n) ∧ (∀ n, configId c.g n = configId s.g n) ∧
      (∀ id, frameName c.g id = frameName s.g id ∧ frameParent c.g id = frameParent s.g id ∧
        frameType c.g id = frameType s.g id ∧ frameConfig c.g id = frameConfig s.g id ∧
        configName c.g id = configName s.g id) ∧
      (∀ id, (entry c.g id).map (·.frame.body.geoms) = (entry s.g id).map (·.frame.body.geoms)) := by
  obtain ⟨st, i, hs, hc⟩ := copy_state hr hd hf he hne
  refine ⟨_, hc, hd, frameCount_map _, rfl, frameId_map same_cp _, fun _ => rfl, fun id =>
    ⟨frameName_map same_cp _ _, frameParent_map _ _, frameType_map same_cp _ _,
      frameConfig_map same_cp _ _, configName_map _ _ _⟩, fun id => ?_⟩
  rw [entry_map, Option.map_map]
  congr 1

/-- **C82**, kinematics: the copy's frames have the same transforms, axes and offsets, so that the
relative and absolute transforms agree for every configuration, in all three representations. -/
theorem C82_kinematics_partial (os : List (LOp (Obj G) K)) (s c : LGraph (Obj G) K)
    (hr : lrun lcreate os = some s) (hd : s.g.dirty = false) (hf : Forest (contents (sgOps os)))
    (he : contents (sgOps os) "" = none) (hne : s.g.map ≠ [] ∨ s.g = create)
    (hm : ∀ n f, contents (sgOps os) n = some f → Made f.body.body) (hc : sgCopy s = some c) :
    bodies c.g = bodies s.g ∧
    ∀ n q, sgTf (bodies c.g) n q = sgTf (bodies s.g) n q ∧
      sgTfmat (bodies c.g) n q = sgTfmat (bodies s.g) n q ∧
      ∀ out, sgDuqu (bodies c.g) n q out = sgDuqu (bodies s.g) n q out := by
  obtain ⟨st, i, hs, hc'⟩ := copy_state hr hd hf he hne
  obtain rfl := Option.some.inj (hc.symm.trans hc')
  have key : ∀ f ∈ s.g.map, (cp f).body.body = f.body.body := by
    intro f hfm
    obtain ⟨q, v, o, a, h⟩ := hm _ f ((mem_map_iff i.run f).1 hfm)
    show mkBody f.body.body.E.q f.body.body.E.v f.body.body.offset f.body.body.axis = _
    rw [h]
    rfl
  have hb : bodies (mapG cp s.g) = bodies s.g := by
    unfold bodies mapG
    simp only [List.map_map, Graph.mk.injEq, and_true]
    constructor
    · refine List.map_congr_left (fun f hfm => ?_)
      show (⟨f.name, f.parent, f.kind, f.config, (cp f).body.body⟩ : Frame Body) = _
      rw [key f hfm]
    · rw [hs.frames, List.map_map, List.map_map]
      refine List.map_congr_left (fun e hem => ?_)
      have hfm : e.frame ∈ s.g.map := hs.perm.mem_iff.1
        (List.mem_map_of_mem (f := fun e : Entry (Obj G) => e.frame) hem)
      show some (⟨⟨e.frame.name, e.frame.parent, e.frame.kind, e.frame.config,
        (cp e.frame).body.body⟩, e.parentId, e.configIndex⟩ : Entry Body) = _
      rw [key _ hfm]
      rfl
  refine ⟨hb, fun n q => ?_⟩
  show sgTf (bodies (mapG cp s.g)) n q = _ ∧ sgTfmat (bodies (mapG cp s.g)) n q = _ ∧
    ∀ out, sgDuqu (bodies (mapG cp s.g)) n q out = _
  rw [hb]
  exact ⟨rfl, rfl, fun _ => rfl⟩

/-- **C82**, limits: the copy returns the values last set in the original, for every configuration
of a joint and every kind. -/
theorem C82_limits_partial (os : List (LOp (Obj G) K)) (s c : LGraph (Obj G) K)
    (hr : lrun lcreate os = some s) (hd : s.g.dirty = false) (hf : Forest (contents (sgOps os)))
    (he : contents (sgOps os) "" = none) (hne : s.g.map ≠ [] ∨ s.g = create)
    (hc : sgCopy s = some c) (x : String) (hx : UsesConfig (contents (sgOps os)) x) (k : LimKind) :
    getLimit c k (configId c.g x) = some (lastLim os k x) := by
  obtain ⟨st, i, hs, hc'⟩ := copy_state hr hd hf he hne
  obtain rfl := Option.some.inj (hc.symm.trans hc')
  obtain ⟨j, h6, h7⟩ : ∃ j : Nat, s.g.configRmap[j]? = some x ∧ configId s.g x = j := by
    obtain ⟨nm, f, h3, h4, rfl⟩ := hx
    obtain ⟨i', e, h5, rfl, -⟩ := hs.exists_entry (contents_name i.run h3).2
    obtain ⟨j, -, h6, -, h8⟩ := hs.frameConfig_entry h5 h4
    exact ⟨j, by rw [hs.rmap]; exact h6, h8⟩
  have hg : configId (mapG cp s.g) x = j := h7
  unfold getLimit
  simp only [hg, List.getElem?_map, Int.toNat_natCast, h6, Option.map_some]
  rw [if_neg (by omega)]
  cases hp : s.lmap x with
  | some p =>
    obtain ⟨l, hl, hk⟩ := i.val x p hp
    simp only [hl, Option.map_some, hk]
  | none =>
    have hn : ¬ EverSet os x := by rw [← i.ever, hp]; simp
    simp only [lastLim_none hn]

/-! ## Allowed collisions -/

/-- The pair of names is in the set of allowed collisions. -/
def AllowedPair (c : ColGraph) (a b : String) : Prop :=
  ∃ p ∈ c.allowed, ∃ x y, deref c p.1 = some x ∧ deref c p.2 = some y ∧ s(x, y) = s(a, b)

theorem ColInv.deref_eq {c : ColGraph} {A : Sym2 String → Bool} (h : ColInv c A) {f : Frame Nat}
    (hf : f ∈ c.g.map) : deref c f.body = some f.name := by
  unfold deref
  cases hx : c.g.map.find? (fun f' => f'.body = f.body) with
  | none =>
    have := List.find?_eq_none.1 hx f hf
    simp at this
  | some f' =>
    have h1 := List.find?_some hx
    have h2 := List.mem_of_find?_eq_some hx
    simp only [decide_eq_true_eq] at h1
    rw [h.inj f' h2 f hf h1]
    rfl

theorem ColInv.allowed_iff {c : ColGraph} {A : Sym2 String → Bool} (h : ColInv c A) (a b : String) :
    AllowedPair c a b ↔ A s(a, b) = true := by
  constructor
  · rintro ⟨p, hp, x, y, hx, hy, hxy⟩
    obtain ⟨f0, h0, f1, h1, rfl, -, hA⟩ := (h.all p).1 hp
    rw [h.deref_eq h0] at hx
    rw [h.deref_eq h1] at hy
    rw [← hxy, ← Option.some.inj hx, ← Option.some.inj hy]
    exact hA
  · intro hA
    obtain ⟨ha, hb⟩ := h.dom a b hA
    obtain ⟨f0, h0, rfl⟩ := List.mem_map.1 ha
    obtain ⟨f1, h1, rfl⟩ := List.mem_map.1 hb
    rcases le_total f0.name f1.name with hle | hle
    · exact ⟨(f0.body, f1.body), (h.all _).2 ⟨f0, h0, f1, h1, rfl, hle, hA⟩, _, _, h.deref_eq h0,
        h.deref_eq h1, rfl⟩
    · exact ⟨(f1.body, f0.body), (h.all _).2 ⟨f1, h1, f0, h0, rfl, hle, by
        rw [Sym2.eq_swap]; exact hA⟩, _, _, h.deref_eq h1, h.deref_eq h0, Sym2.eq_swap⟩

/-- A frame without its object number. -/
def bare (f : Frame Nat) : Frame Unit := ⟨f.name, f.parent, f.kind, f.config, ()⟩

theorem same_bare : Same bare := ⟨fun _ => rfl, fun _ => rfl, fun _ => rfl, fun _ => rfl⟩

theorem colCopyFrames_eq (es : List (Entry Nat)) (d : ColGraph) (A : Sym2 String → Bool)
    (h : ColInv d A) (hn : (es.map (fun e => e.frame.name)).Nodup)
    (hdis : ∀ e ∈ es, e.frame.name ∉ names d.g.map) :
    ∃ d', colCopyFrames (es.map some) d = some d' ∧ ColInv d' A ∧
      (∀ y, y ∈ d'.g.map.map bare ↔ y ∈ es.map (fun e => bare e.frame) ∨ y ∈ d.g.map.map bare) ∧
      (es ≠ [] → d'.g.dirty = true) ∧ (es = [] → d' = d) := by
  induction es generalizing d with
  | nil => exact ⟨d, rfl, h, by simp, by simp, fun _ => rfl⟩
  | cons e es ih =>
    have hn' := List.nodup_cons.1 hn
    have hfresh := hdis e List.mem_cons_self
    set f : Frame Nat := ⟨e.frame.name, e.frame.parent, e.frame.kind, e.frame.config, d.next⟩ with hfd
    set d1 := colAdd d e.frame.name e.frame.parent e.frame.kind e.frame.config with hd1
    have h1 : ColInv d1 A :=
      colInv_run [ColOp.add e.frame.name e.frame.parent e.frame.kind e.frame.config] d d1 A h rfl
        (by simp [added]) (by
          intro n hnm
          simp only [added, List.mem_singleton] at hnm
          rw [hnm]; exact hfresh) (by simp)
    have hmem : ∀ x, x ∈ d1.g.map ↔ x = f ∨ x ∈ d.g.map := by
      intro x
      show x ∈ mapPut d.g.map f ↔ _
      rw [mem_mapPut h.reach.sorted]
      constructor
      · rintro (h1 | h1)
        · exact Or.inl h1
        · exact Or.inr h1.1
      · rintro (h1 | h1)
        · exact Or.inl h1
        · refine Or.inr ⟨h1, fun h2 => hfresh ?_⟩
          have := List.mem_map_of_mem (f := fun f : Frame Nat => f.name) h1
          rwa [h2] at this
    obtain ⟨d', k1, k2, k3, k4, k5⟩ := ih d1 h1 hn'.2 (by
      intro e' he' hm
      obtain ⟨x, hx, hxn⟩ := List.mem_map.1 hm
      rcases (hmem x).1 hx with rfl | hx
      · refine hn'.1 ?_
        show e.frame.name ∈ _
        have : e.frame.name = e'.frame.name := hxn
        rw [this]
        exact List.mem_map_of_mem (f := fun e : Entry Nat => e.frame.name) he'
      · exact hdis e' (List.mem_cons_of_mem _ he')
          (by rw [← hxn]; exact List.mem_map_of_mem (f := fun f : Frame Nat => f.name) hx))
    refine ⟨d', k1, k2, fun y => ?_, fun _ => ?_, by simp⟩
    · rw [k3]
      have : y ∈ d1.g.map.map bare ↔ y = bare e.frame ∨ y ∈ d.g.map.map bare := by
        simp only [List.mem_map, hmem]
        constructor
        · rintro ⟨x, rfl | hx, rfl⟩
          · exact Or.inl rfl
          · exact Or.inr ⟨x, hx, rfl⟩
        · rintro (rfl | ⟨x, hx, rfl⟩)
          · exact ⟨f, Or.inl rfl, rfl⟩
          · exact ⟨x, Or.inr hx, rfl⟩
      rw [this]
      simp only [List.map_cons, List.mem_cons]
      tauto
    · by_cases hes : es = []
      · rw [k5 hes]; rfl
      · exact k4 hes

theorem allowName_some {d : ColGraph} {a b : String} (ha : a ∈ names d.g.map)
    (hb : b ∈ names d.g.map) : ∃ d', allowName d a b true = some d' := by
  have key : ∀ n ∈ names d.g.map, ∃ p, namePtr d n = some p := by
    intro n hn
    obtain ⟨f, hf⟩ := Option.isSome_iff_exists.1 (find_isSome.2 hn)
    exact ⟨f.body, by rw [namePtr, hf]; rfl⟩
  obtain ⟨p, hp⟩ := key a ha
  obtain ⟨q, hq⟩ := key b hb
  unfold allowName
  by_cases hab : a < b
  · simp only [if_pos hab, hp, hq]; exact ⟨_, rfl⟩
  · simp only [if_neg hab, hp, hq]; exact ⟨_, rfl⟩

theorem colCopyAllowed_eq (c : ColGraph) (ps : List (Nat × Nat)) (d : ColGraph)
    (A : Sym2 String → Bool) (h : ColInv d A)
    (hps : ∀ p ∈ ps, ∃ a b, deref c p.1 = some a ∧ deref c p.2 = some b ∧ a ∈ names d.g.map ∧
      b ∈ names d.g.map) :
    ∃ d' A', colCopyAllowed c ps d = some d' ∧ d'.g = d.g ∧ ColInv d' A' ∧
      (∀ t, A' t = true ↔ A t = true ∨
        ∃ p ∈ ps, ∃ x y, deref c p.1 = some x ∧ deref c p.2 = some y ∧ s(x, y) = t) := by
  induction ps generalizing d A with
  | nil => exact ⟨d, A, rfl, rfl, h, by simp⟩
  | cons p ps ih =>
    obtain ⟨a, b, ha, hb, ha', hb'⟩ := hps p List.mem_cons_self
    obtain ⟨d1, h1⟩ := allowName_some ha' hb'
    have hg := (allowName_g h1).1
    obtain ⟨d', A', k1, k2, k3, k4⟩ := ih d1 _ (colInv_allow h h1) (by
      intro p' hp'
      rw [hg]
      exact hps p' (List.mem_cons_of_mem _ hp'))
    refine ⟨d', A', by simp only [colCopyAllowed, ha, hb, h1, k1], k2.trans hg, k3, fun t => ?_⟩
    rw [k4]
    by_cases ht : t = s(a, b)
    · subst ht
      simp only [Function.update_self, true_or, true_iff]
      exact Or.inr ⟨p, List.mem_cons_self, a, b, ha, hb, rfl⟩
    · rw [Function.update_of_ne ht]
      simp only [List.mem_cons, exists_eq_or_imp]
      constructor
      · rintro (h | h)
        · exact Or.inl h
        · exact Or.inr (Or.inr h)
      · rintro (h | ⟨x, y, hx, hy, hxy⟩ | h)
        · exact Or.inl h
        · rw [ha] at hx; rw [hb] at hy
          cases hx; cases hy
          exact absurd hxy.symm ht
        · exact Or.inr h

/-- **C82**, allowed collisions: for a history in which no frame is removed or replaced, the copy is
defined, its frames have the same numbers, and the same pairs of names are allowed. -/
theorem C82_allowed_partial (os : List ColOp) (c : ColGraph) (hr : colRun colCreate os = some c)
    (hdel : NoDelete os) (hd : c.g.dirty = false) (hf : Forest (contents (frameOps 0 os)))
    (he : contents (frameOps 0 os) "" = none) :
    ∃ d, colCopy c = some d ∧ d.g.dirty = false ∧ (∀ n, frameId d.g n = frameId c.g n) ∧
      ∀ a b, AllowedPair d a b ↔ AllowedPair c a b := by
  have hrun : run create (frameOps 0 os) = some c.g := colRun_frames os colCreate c hr
  have hreach := reach_run reach_create hrun
  have inv0 : ColInv colCreate (fun _ => false) :=
    ⟨reach_create, by simp [colCreate, create], by simp [colCreate, create],
      by simp [colCreate, create], by simp⟩
  have inv := colInv_run os colCreate c _ inv0 hr hdel.1 (by simp [colCreate, create, names]) hdel.2
  have hnn : ∀ f ∈ c.g.map, f.name ≠ "" := by
    intro f hm h0
    rw [mem_map_iff hrun, h0, he] at hm
    simp at hm
  have hi : index c.g = some (Status.ok, c.g) := by simp [index, hd]
  obtain ⟨st, hs, -⟩ := reach_indexed hreach hi (forest_acyclic hrun hf) hnn
  have hnod : (st.entries.map (fun e => e.frame.name)).Nodup := by
    have := (hs.perm.map (fun f : Frame Nat => f.name)).nodup_iff.2 hs.nodup
    rwa [List.map_map] at this
  obtain ⟨d1, a1, a2, a3, a4, a5⟩ := colCopyFrames_eq st.entries colCreate _ inv0 hnod
    (by simp [colCreate, create, names])
  have hbare : ∀ y, y ∈ d1.g.map.map bare ↔ y ∈ c.g.map.map bare := by
    intro y
    rw [a3]
    have : (st.entries.map (fun e => bare e.frame)).Perm (c.g.map.map bare) := by
      have := hs.perm.map bare
      rwa [List.map_map] at this
    rw [this.mem_iff]
    simp [colCreate, create]
  have hnames : ∀ n, n ∈ names c.g.map → n ∈ names d1.g.map := by
    intro n hn
    obtain ⟨f, hfm, rfl⟩ := List.mem_map.1 hn
    obtain ⟨f', hf', hff⟩ := List.mem_map.1 ((hbare _).2 (List.mem_map_of_mem (f := bare) hfm))
    have : f'.name = f.name := congrArg (fun x : Frame Unit => x.name) hff
    rw [← this]
    exact List.mem_map_of_mem (f := fun f : Frame Nat => f.name) hf'
  obtain ⟨d2, A', b1, b2, b3, b4⟩ := colCopyAllowed_eq c c.allowed d1 _ a2 (by
    intro p hp
    obtain ⟨f0, h0, f1, h1, rfl, -, -⟩ := (inv.all p).1 hp
    exact ⟨_, _, inv.deref_eq h0, inv.deref_eq h1,
      hnames _ (List.mem_map_of_mem (f := fun f : Frame Nat => f.name) h0),
      hnames _ (List.mem_map_of_mem (f := fun f : Frame Nat => f.name) h1)⟩)
  have hall : ∀ d, ColInv d A' → ∀ a b, AllowedPair d a b ↔ AllowedPair c a b := by
    intro d hdi a b
    rw [hdi.allowed_iff, b4]
    simp only [Bool.false_eq_true, false_or]
    rfl
  -- the indices of the copy
  obtain ⟨gd, hgd, hgdirty, hid⟩ : ∃ gd, index d2.g = some (Status.ok, gd) ∧ gd.dirty = false ∧
      ∀ n, frameId gd n = frameId c.g n := by
    rw [b2]
    by_cases hes : st.entries = []
    · refine ⟨d1.g, ?_, ?_, fun n => ?_⟩
      · rw [a5 hes]; rfl
      · rw [a5 hes]; rfl
      · rw [a5 hes]
        have h0 : c.g.frames = [] := by rw [hs.frames, hes]; rfl
        have hmap : c.g.map = [] := by
          have := hs.perm
          rw [hes] at this
          exact List.nil_perm.1 (by simpa using this)
        simp [frameId, colCreate, create, h0, hmap]
    · have hcr : c.g ≠ create := by
        intro h
        apply hes
        have := hs.perm
        rw [h] at this
        simpa [create] using this
      obtain ⟨g0, hd0, hm0, hi0⟩ := (hreach.clean hd).resolve_left hcr
      have hmap : (mapG bare d1.g).map = (mapG bare g0).map := by
        refine sorted_ext ?_ ?_ ?_
        · show List.Pairwise _ (d1.g.map.map bare)
          rw [List.pairwise_map]
          exact a2.reach.sorted
        · show List.Pairwise _ (g0.map.map bare)
          rw [List.pairwise_map, hm0]
          exact hreach.sorted
        · intro x
          show x ∈ d1.g.map.map bare ↔ x ∈ g0.map.map bare
          rw [hm0]
          exact hbare x
      have hidx : index (mapG bare d1.g) = some (Status.ok, mapG bare c.g) := by
        refine index_congr (g := mapG bare g0) hd0 (a4 hes) hmap ?_
        rw [index_map same_bare, hi0]
        rfl
      rw [index_map same_bare, Option.map_eq_some_iff] at hidx
      obtain ⟨⟨x, gd⟩, e1, e2⟩ := hidx
      simp only [Prod.mk.injEq] at e2
      obtain ⟨rfl, e2⟩ := e2
      refine ⟨gd, e1, ?_, fun n => ?_⟩
      · have := congrArg (fun g : Graph Unit => g.dirty) e2
        exact this.trans hd
      · rw [← frameId_map same_bare gd n, e2, frameId_map same_bare]
  have hgm : gd.map = d2.g.map := by
    obtain ⟨x, g', h1, h2⟩ := index_total (g := d2.g)
    rw [hgd] at h1
    cases h1
    exact h2
  refine ⟨{ d2 with g := gd }, ?_, hgdirty, hid, fun a b => ?_⟩
  · unfold colCopy
    rw [if_neg (by rw [hd]; simp), hs.frames, a1]
    simp only [b1, colInit, hgd, Option.map_some]
  · rw [← hall d2 b3 a b]
    unfold AllowedPair deref
    simp only [hgm]

/-! ## Concrete cases and disagreements -/

/-- A revolute joint `j` with configuration `q`, two geometries and a mass, on a fixed base; the limit
of the velocity is set after the initialisation. -/
noncomputable def robotOps : List (LOp (Obj String) Int) :=
  [.set .pos "q" (-1) 1,
   .sg (Op.add ⟨"base", "", Kind.fixed, "", ⟨mkBody qident ⟨0, 0, 1⟩ 0 ⟨0, 0, 0⟩, none, ["box"]⟩⟩),
   .sg (Op.add ⟨"j", "base", Kind.revolute, "q",
     ⟨mkBody qident ⟨1, 0, 0⟩ 0 ⟨0, 0, 1⟩, some (2, m3ident), ["link", "tool"]⟩⟩),
   .sg Op.init, .set .vel "q" (-2) 2]

/-- The history meets the hypotheses of the theorems. -/
example : ∃ s, lrun lcreate robotOps = some s ∧ s.g.dirty = false ∧ s.g.map.length = 2 ∧
    frameId s.g "j" = 1 ∧ frameParent s.g 1 = some 0 := ⟨_, rfl, rfl, rfl, rfl, rfl⟩

example : Forest (contents (sgOps robotOps)) := by
  have hp : ∀ a b, IsParent (contents (sgOps robotOps)) a b → a = "base" ∧ b = "j" := by
    rintro a b ⟨h1, f, h2, h3⟩
    have : contents (sgOps robotOps) = Function.update (Function.update (fun _ => none) "base" (some
        ⟨"base", "", Kind.fixed, "", ⟨mkBody qident ⟨0, 0, 1⟩ 0 ⟨0, 0, 0⟩, none, ["box"]⟩⟩)) "j" (some
        ⟨"j", "base", Kind.revolute, "q",
          ⟨mkBody qident ⟨1, 0, 0⟩ 0 ⟨0, 0, 1⟩, some (2, m3ident), ["link", "tool"]⟩⟩) := by
      funext n
      simp only [robotOps, sgOps, List.filterMap_cons, List.filterMap_nil, contents, List.foldl_cons,
        List.foldl_nil, Function.update_apply]
    rw [this] at h2
    by_cases hb : b = "j"
    · subst hb
      simp only [Function.update_self, Option.some.injEq] at h2
      subst h2
      exact ⟨h3.symm, rfl⟩
    · rw [Function.update_of_ne hb] at h2
      by_cases hb' : b = "base"
      · subst hb'
        simp only [Function.update_self, Option.some.injEq] at h2
        subst h2
        exact absurd h3.symm h1
      · rw [Function.update_of_ne hb'] at h2
        simp at h2
  intro n hn
  have h1 : ∀ a b, Relation.TransGen (IsParent (contents (sgOps robotOps))) a b →
      a = "base" ∧ b = "j" := by
    intro a b h
    induction h with
    | single h => exact hp _ _ h
    | tail h h' ih => exact ⟨ih.1, (hp _ _ h').2⟩
  obtain ⟨h2, h3⟩ := h1 n n hn
  rw [h2] at h3
  exact absurd h3 (by decide)

example : contents (sgOps robotOps) "" = none := rfl

/-- **C82 fails** for inertial data: mass and inertia of the frame are not copied. -/
theorem C82_violates_inertial :
    ∃ s c, lrun lcreate robotOps = some s ∧ sgCopy s = some c ∧
      getInertial s.g (frameId s.g "j") = some (some (2, m3ident)) ∧
      getInertial c.g (frameId c.g "j") = some none := ⟨_, _, rfl, rfl, rfl, rfl⟩

/-- The history of `C82_violates_late_limit`. -/
noncomputable def lateRobotOps : List (LOp (Obj String) Int) :=
  [.sg (Op.add ⟨"j", "", Kind.revolute, "q", ⟨mkBody qident ⟨1, 0, 0⟩ 0 ⟨0, 0, 1⟩, none, []⟩⟩),
   .sg Op.init, .set .pos "q" (-1) 1]

/-- **C82 fails** for a limit that is first set after `aa_rx_sg_init`: the copy has it, the original
does not report it (C80). -/
theorem C82_violates_late_limit :
    ∃ s c, lrun lcreate lateRobotOps = some s ∧ sgCopy s = some c ∧
      getLimit s .pos 0 = some none ∧ getLimit c .pos 0 = some (some (-1, 1)) :=
  ⟨_, _, rfl, rfl, rfl, rfl⟩

/-- **C82 fails** for an initialised graph without frames: its number of configurations is 0; the
indices of the copy are never computed, and the number is indeterminate. -/
theorem C82_violates_empty :
    ∃ s c, lrun lcreate ([.sg (Op.rm "j"), .sg Op.init] : List (LOp (Obj String) Int)) = some s ∧
      sgCopy s = some c ∧ configCount s.g = some 0 ∧ configCount c.g = none :=
  ⟨_, _, rfl, rfl, rfl, rfl⟩

/-- **C82 fails** when a frame of an allowed pair was removed: the copy reads the deleted name. -/
theorem C82_violates_removed :
    ∃ c, colRun colCreate [ColOp.add "a" "" Kind.fixed "", ColOp.add "b" "" Kind.fixed "", ColOp.init,
      ColOp.allowName "a" "b" true, ColOp.rm "b", ColOp.init] = some c ∧ c.g.dirty = false ∧
      colCopy c = none := ⟨_, rfl, rfl, rfl⟩

/-- The copy of a graph with an allowed pair, for `C82_allowed_partial`. -/
example : ∃ c d, colRun colCreate (allowOps ++ [ColOp.init]) = some c ∧ c.g.dirty = false ∧
    colCopy c = some d ∧ d.allowed.length = 1 ∧ c.allowed.length = 1 ∧ d.allowed ≠ c.allowed := by
  refine ⟨_, _, rfl, rfl, rfl, rfl, rfl, by decide⟩

example : NoDelete (allowOps ++ [ColOp.init]) := ⟨by decide, by
  intro n hn
  simp [allowOps] at hn⟩

end Verif.Sg
