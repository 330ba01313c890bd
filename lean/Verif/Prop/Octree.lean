import Std.Data.String.ToNat
import Mathlib.Tactic.Linarith
import Verif.Model.Octree
import Verif.Proof.SgIndex

/-!
# C139: an octree in a scene graph
-/

namespace Verif.Octree

open Verif.Sg Verif.Tf

/-! ## Specification -/

open Classical in
/-- The occupied leaves, in the order of the tree. -/
noncomputable def occupied (ls : List Leaf) : List Leaf := ls.filter fun l => l.occ > 1 / 2

/-- The point is in the cube of the leaf. -/
def Leaf.Has (l : Leaf) (p : V3) : Prop :=
  |p.x - l.c.x| ≤ l.side / 2 ∧ |p.y - l.c.y| ≤ l.side / 2 ∧ |p.z - l.c.z| ≤ l.side / 2

/-- The point, in coordinates of the parent of the frame, is in a box at the frame. -/
def InBox (f : Frame (Obj (GeomOpt.Geom ℝ))) (p : V3) : Prop :=
  ∃ b ∈ f.body.geoms, ∃ x y z, b.shape = .box x y z ∧
    ∃ u : V3, |u.x| ≤ x / 2 ∧ |u.y| ≤ y / 2 ∧ |u.z| ≤ z / 2 ∧ p = qutrTf f.body.body.E u

/-- What a user expects of the frame of a leaf. -/
structure FrameOf (parent : String) (opt : Option (GeomOpt.Opt ℝ)) (l : Leaf)
    (f : Frame (Obj (GeomOpt.Geom ℝ))) : Prop where
  parent : f.parent = parent
  fixed : f.kind = .fixed
  center : f.body.body.E = ⟨qident, l.c⟩
  bare : opt = none → f.body.geoms = []
  one : ∀ o, opt = some o → ∃ b, f.body.geoms = [b] ∧ b.opt = o
  points : ∀ o, opt = some o → ∀ p, InBox f p ↔ l.Has p

/-- The graph has the frame of every occupied leaf under the numbered name, and otherwise what it had. -/
structure Right (g g' : Graph (Obj (GeomOpt.Geom ℝ))) (parent name : String) (ls : List Leaf)
    (opt : Option (GeomOpt.Opt ℝ)) : Prop where
  leaves : ∀ (k : Nat) l, (occupied ls)[k]? = some l →
    ∃ f, find g'.map (name ++ "/" ++ toString k) = some f ∧ FrameOf parent opt l f
  others : ∀ n, (∀ k : Nat, k < (occupied ls).length → n ≠ name ++ "/" ++ toString k) → find g'.map n = find g.map n

/-! ## Lemmas -/

theorem subName_inj {name : String} {i j : Nat} (h : subName name i = subName name j) : i = j := by
  unfold subName at h
  exact Nat.repr_injective ((String.append_right_inj _).1 h)

theorem qutrTf_ident (c u : V3) : qutrTf ⟨qident, c⟩ u = ⟨u.x + c.x, u.y + c.y, u.z + c.z⟩ := by
  simp [qutrTf, qident]

/-- The frame of a leaf with a box of side `d`. -/
noncomputable def boxed (parent n : String) (l : Leaf) (opt : Option (GeomOpt.Opt ℝ)) (d : ℝ) :
    Frame (Obj (GeomOpt.Geom ℝ)) :=
  ⟨n, parent, .fixed, "", ⟨mkBody qident l.c 0 ⟨0, 0, 0⟩, none,
    (opt.map fun o => GeomOpt.geomBox o d d d).toList⟩⟩

theorem leafStep_occ {parent name : String} {opt : Option (GeomOpt.Opt ℝ)} {l : Leaf} {s : St ℝ} {d : ℝ}
    (hs : Sorted s.g.map) (ho : l.occ > 1 / 2) (hd : opt.isSome → s.dim.getD (cbrt l.side) = d) :
    ∃ s', leafStep parent name opt l s = some s' ∧ s'.x = s.x + 1 ∧ Sorted s'.g.map ∧
      (∀ n, find s'.g.map n = if n = subName name s.x then some (boxed parent n l opt d) else find s.g.map n) ∧
      s'.dim = if opt.isSome then some d else s.dim := by
  have h1 := sorted_mapPut hs (leafFrame (G := GeomOpt.Geom ℝ) parent (subName name s.x) l)
  have h2 := find_mapPut hs (leafFrame (G := GeomOpt.Geom ℝ) parent (subName name s.x) l)
  have hn : (leafFrame (G := GeomOpt.Geom ℝ) parent (subName name s.x) l).name = subName name s.x := rfl
  cases opt with
  | none =>
    refine ⟨⟨s.dim, s.x + 1, add s.g (leafFrame parent (subName name s.x) l)⟩, ?_, rfl, h1, fun n => ?_, rfl⟩
    · unfold leafStep
      rw [if_pos ho]
      rfl
    · show find (mapPut _ _) n = _
      rw [h2 n, hn]
      by_cases e : n = subName name s.x
      · subst e; rw [if_pos rfl, if_pos rfl]; rfl
      · rw [if_neg e, if_neg e]
  | some o =>
    have hd' := hd rfl
    have h3 : find (add s.g (leafFrame (G := GeomOpt.Geom ℝ) parent (subName name s.x) l)).map (subName name s.x) =
        some (leafFrame parent (subName name s.x) l) := by
      show find (mapPut _ _) _ = _
      rw [h2, if_pos hn.symm]
    have h4 := sorted_mapPut (m := (add s.g (leafFrame (G := GeomOpt.Geom ℝ) parent (subName name s.x) l)).map) h1
      (boxed parent (subName name s.x) l (some o) d)
    have h5 := find_mapPut (m := (add s.g (leafFrame (G := GeomOpt.Geom ℝ) parent (subName name s.x) l)).map) h1
      (boxed parent (subName name s.x) l (some o) d)
    refine ⟨⟨some d, s.x + 1, { add s.g (leafFrame parent (subName name s.x) l) with
      map := mapPut (add s.g (leafFrame parent (subName name s.x) l)).map
        (boxed parent (subName name s.x) l (some o) d) }⟩, ?_, rfl, h4, fun n => ?_, rfl⟩
    · unfold leafStep addBox
      rw [if_pos ho]
      dsimp only
      unfold addGeom
      rw [h3, hd']
      rfl
    · show find (mapPut _ _) n = _
      rw [h5 n]
      have hb : (boxed parent (subName name s.x) l (some o) d).name = subName name s.x := rfl
      rw [hb]
      by_cases e : n = subName name s.x
      · subst e; rw [if_pos rfl, if_pos rfl]
      · rw [if_neg e, if_neg e]
        show find (mapPut _ _) n = _
        rw [h2 n, hn, if_neg e]

theorem leafLoop_run (parent name : String) (opt : Option (GeomOpt.Opt ℝ)) (d : ℝ) : ∀ (ls : List Leaf) (s : St ℝ),
    Sorted s.g.map →
    (∀ l, (occupied ls).head? = some l → opt.isSome → s.dim.getD (cbrt l.side) = d) →
    ∃ s', leafLoop parent name opt ls s = some s' ∧ Sorted s'.g.map ∧
      (∀ (k : Nat) l, (occupied ls)[k]? = some l →
        find s'.g.map (subName name (s.x + k)) = some (boxed parent (subName name (s.x + k)) l opt d)) ∧
      (∀ n, (∀ k : Nat, k < (occupied ls).length → n ≠ subName name (s.x + k)) → find s'.g.map n = find s.g.map n) ∧
      s'.dim = if opt.isSome ∧ occupied ls ≠ [] then some d else s.dim := by
  intro ls
  induction ls with
  | nil =>
    intro s hs _
    refine ⟨s, rfl, hs, fun k l h => ?_, fun n _ => rfl, ?_⟩
    · simp [occupied] at h
    · rw [if_neg (by simp [occupied])]
  | cons l ls ih =>
    intro s hs hd
    by_cases ho : l.occ > 1 / 2
    · have hocc : occupied (l :: ls) = l :: occupied ls := by
        unfold occupied
        rw [List.filter_cons_of_pos (by simpa using ho)]
      rw [hocc] at hd ⊢
      obtain ⟨s1, e1, hx, hs1, hf, hdim⟩ := leafStep_occ (parent := parent) (name := name) hs ho (hd l rfl)
      obtain ⟨s2, e2, hs2, hl, hot, hdim2⟩ := ih s1 hs1 (by
        intro l' _ hopt
        rw [hdim, if_pos hopt]
        rfl)
      refine ⟨s2, ?_, hs2, ?_, ?_, ?_⟩
      · simp only [leafLoop, e1, e2]
      · intro k l' hk
        cases k with
        | zero =>
          simp only [List.getElem?_cons_zero, Option.some.injEq] at hk
          subst hk
          rw [hot, hf, Nat.add_zero, if_pos rfl]
          intro k _ he
          have := subName_inj he
          omega
        | succ k =>
          have := hl k l' (by simpa using hk)
          rw [hx] at this
          rw [show s.x + (k + 1) = s.x + 1 + k by omega]
          exact this
      · intro n hn
        rw [hot, hf, if_neg]
        · have := hn 0 (by simp)
          simpa using this
        · intro k hk
          have := hn (k + 1) (by simpa using hk)
          rw [hx, show s.x + 1 + k = s.x + (k + 1) by omega]
          exact this
      · rw [hdim2]
        by_cases h : opt.isSome
        · have hc : opt.isSome ∧ l :: occupied ls ≠ [] := ⟨h, by simp⟩
          rw [hdim, if_pos h, if_pos hc]
          split_ifs <;> rfl
        · rw [hdim, if_neg h, if_neg (fun c => h c.1), if_neg (fun c => h c.1)]
    · have hocc : occupied (l :: ls) = occupied ls := by
        unfold occupied
        rw [List.filter_cons_of_neg (by simpa using ho)]
      rw [hocc] at hd ⊢
      obtain ⟨s2, e2, h⟩ := ih s hs hd
      refine ⟨s2, ?_, h⟩
      unfold leafLoop leafStep
      rw [if_neg ho]
      exact e2

/-- The side of the boxes: that of the static variable, or what the first occupied leaf initialises it to. -/
noncomputable def boxSide (dim : Option ℝ) (ls : List Leaf) : ℝ :=
  dim.getD (cbrt (((occupied ls).head?.map (·.side)).getD 0))

theorem addOctree_run {g : Graph (Obj (GeomOpt.Geom ℝ))} (hs : Sorted g.map) (dim : Option ℝ) (parent name : String)
    (ls : List Leaf) (opt : Option (GeomOpt.Opt ℝ)) :
    ∃ g', addOctree dim g parent name ls opt =
        some (if opt.isSome ∧ occupied ls ≠ [] then some (boxSide dim ls) else dim, g') ∧ Sorted g'.map ∧
      (∀ (k : Nat) l, (occupied ls)[k]? = some l →
        find g'.map (name ++ "/" ++ toString k) = some (boxed parent (subName name k) l opt (boxSide dim ls))) ∧
      (∀ n, (∀ k : Nat, k < (occupied ls).length → n ≠ name ++ "/" ++ toString k) →
        find g'.map n = find g.map n) := by
  obtain ⟨s, e, h1, h2, h3, h4⟩ := leafLoop_run parent name opt (boxSide dim ls) ls ⟨dim, 0, g⟩ hs (by
    intro l hl _
    unfold boxSide
    rw [hl]
    rfl)
  simp only [Nat.zero_add] at h2 h3 h4
  refine ⟨s.g, ?_, h1, h2, h3⟩
  unfold addOctree
  rw [e, ← h4]
  rfl

theorem inBox_boxed (parent n : String) (l : Leaf) (o : GeomOpt.Opt ℝ) (d : ℝ) (p : V3) :
    InBox (boxed parent n l (some o) d) p ↔
      |p.x - l.c.x| ≤ d / 2 ∧ |p.y - l.c.y| ≤ d / 2 ∧ |p.z - l.c.z| ≤ d / 2 := by
  unfold InBox boxed mkBody GeomOpt.geomBox
  constructor
  · rintro ⟨b, hb, x, y, z, hsh, u, h1, h2, h3, rfl⟩
    simp only [Option.map_some, Option.toList_some, List.mem_singleton] at hb
    subst hb
    simp only [GeomOpt.Shape.box.injEq] at hsh
    obtain ⟨rfl, rfl, rfl⟩ := hsh
    simp only [qutrTf_ident, add_sub_cancel_right]
    exact ⟨h1, h2, h3⟩
  · rintro ⟨h1, h2, h3⟩
    refine ⟨⟨o, .box d d d⟩, by simp, d, d, d, rfl, ⟨p.x - l.c.x, p.y - l.c.y, p.z - l.c.z⟩, h1, h2, h3, ?_⟩
    simp only [qutrTf_ident, sub_add_cancel]

/-- Concentric cubes of different sides are different; the sides must not be negative. -/
theorem cube_eq {l : Leaf} {d : ℝ} (hl : 0 < l.side) (hd : 0 ≤ d)
    (h : ∀ p : V3, (|p.x - l.c.x| ≤ d / 2 ∧ |p.y - l.c.y| ≤ d / 2 ∧ |p.z - l.c.z| ≤ d / 2) ↔ l.Has p) :
    l.side = d := by
  have key : ∀ a : ℝ, 0 ≤ a → (a ≤ d / 2 ↔ a ≤ l.side / 2) := by
    intro a ha
    have := h ⟨l.c.x + a, l.c.y, l.c.z⟩
    simp only [Leaf.Has, add_sub_cancel_left, sub_self, abs_zero, abs_of_nonneg ha] at this
    constructor
    · intro hx
      exact (this.1 ⟨hx, by linarith, by linarith⟩).1
    · intro hx
      exact (this.2 ⟨hx, by linarith, by linarith⟩).1
  have h1 := (key (d / 2) (by linarith)).1 le_rfl
  have h2 := (key (l.side / 2) (by linarith)).2 le_rfl
  linarith

theorem cbrt_nonneg {x : ℝ} (h : 0 ≤ x) : 0 ≤ cbrt x := by
  unfold cbrt
  rw [if_pos h]
  exact Real.rpow_nonneg h _

theorem cbrt_cube {x : ℝ} (h : 0 ≤ x) : cbrt x ^ 3 = x := by
  unfold cbrt
  rw [if_pos h, ← Real.rpow_natCast, ← Real.rpow_mul h]
  norm_num

theorem cbrt_fix {x : ℝ} (h : 0 < x) : x = cbrt x ↔ x = 1 := by
  have hc := cbrt_cube h.le
  constructor
  · intro e
    rw [← e] at hc
    have : x * (x - 1) * (x + 1) = 0 := by ring_nf; linarith
    rcases mul_eq_zero.1 this with h1 | h1
    · rcases mul_eq_zero.1 h1 with h2 | h2 <;> linarith
    · linarith
  · rintro rfl
    simp [cbrt]

/-! ## Theorems -/

/-- **C139, the part that holds: the frames.** Every call returns; every occupied leaf has a fixed frame
below the parent at its centre, under the numbered name. With options it has one box with these options,
and a cube; the cubes of a call have the same side. All other frames are as before. -/
theorem C139_frames_partial {g : Graph (Obj (GeomOpt.Geom ℝ))} (hs : Sorted g.map) (dim : Option ℝ)
    (parent name : String) (ls : List Leaf) (opt : Option (GeomOpt.Opt ℝ)) :
    ∃ dim' g' d, addOctree dim g parent name ls opt = some (dim', g') ∧
      (∀ (k : Nat) l, (occupied ls)[k]? = some l → ∃ f, find g'.map (name ++ "/" ++ toString k) = some f ∧
        f.parent = parent ∧ f.kind = .fixed ∧ f.body.body.E = ⟨qident, l.c⟩ ∧
        f.body.geoms = (opt.map fun o => (⟨o, .box d d d⟩ : GeomOpt.Geom ℝ)).toList) ∧
      (∀ n, (∀ k : Nat, k < (occupied ls).length → n ≠ name ++ "/" ++ toString k) →
        find g'.map n = find g.map n) := by
  obtain ⟨g', e, h1, h2, h3⟩ := addOctree_run hs dim parent name ls opt
  exact ⟨_, g', boxSide dim ls, e, fun k l h => ⟨_, h2 k l h, rfl, rfl, rfl, rfl⟩, h3⟩

/-- **C139 without geometry** holds. -/
theorem C139_bare_partial {g : Graph (Obj (GeomOpt.Geom ℝ))} (hs : Sorted g.map) (dim : Option ℝ)
    (parent name : String) (ls : List Leaf) :
    ∃ g', addOctree dim g parent name ls none = some (dim, g') ∧ Right g g' parent name ls none := by
  obtain ⟨g', e, h1, h2, h3⟩ := addOctree_run hs dim parent name ls none
  exact ⟨g', by simpa using e, fun k l h => ⟨_, h2 k l h, rfl, rfl, rfl, fun _ => rfl, (fun o h => nomatch h),
    (fun o h => nomatch h)⟩, h3⟩

/-- **C139, exactly when it holds with geometry.** The boxes cover the occupied leaves exactly if every
occupied leaf has the side of the static variable, which is the cubic root of the side of the first
occupied leaf of the first call in the process. -/
theorem C139_iff_partial {g : Graph (Obj (GeomOpt.Geom ℝ))} (hs : Sorted g.map) (dim : Option ℝ)
    (hdim : ∀ d ∈ dim, 0 ≤ d) (parent name : String) (ls : List Leaf) (hp : ∀ l ∈ ls, 0 < l.side)
    (o : GeomOpt.Opt ℝ) :
    ∃ g', addOctree dim g parent name ls (some o) =
        some (if occupied ls ≠ [] then some (boxSide dim ls) else dim, g') ∧
      (Right g g' parent name ls (some o) ↔ ∀ l ∈ occupied ls, l.side = boxSide dim ls) := by
  obtain ⟨g', e, h1, h2, h3⟩ := addOctree_run hs dim parent name ls (some o)
  have hmem : ∀ l ∈ occupied ls, 0 < l.side := fun l hl => hp l (List.mem_of_mem_filter hl)
  have hd : 0 ≤ boxSide dim ls := by
    unfold boxSide
    cases dim with
    | some d => exact hdim d rfl
    | none =>
      refine cbrt_nonneg ?_
      cases ho : occupied ls with
      | nil => exact le_rfl
      | cons l t => exact (hmem l (by rw [ho]; simp)).le
  refine ⟨g', by simpa using e, ?_, ?_⟩
  · intro hr l hl
    obtain ⟨k, hk⟩ := List.getElem?_of_mem hl
    obtain ⟨f, hf, hF⟩ := hr.leaves k l hk
    rw [h2 k l hk, Option.some.injEq] at hf
    subst hf
    refine cube_eq (hmem l hl) hd fun p => ?_
    rw [← inBox_boxed parent (subName name k) l o]
    exact hF.points o rfl p
  · intro hall
    refine ⟨fun k l hk => ⟨_, h2 k l hk, rfl, rfl, rfl, fun h => (nomatch h), fun o' ho => ?_, fun o' ho p => ?_⟩, h3⟩
    · cases ho
      exact ⟨_, rfl, rfl⟩
    · rw [inBox_boxed, ← hall l (List.mem_of_getElem? hk)]
      rfl

/-- **C139 in the first call of a process** holds exactly if all occupied leaves have side one. -/
theorem C139_first_iff_partial {g : Graph (Obj (GeomOpt.Geom ℝ))} (hs : Sorted g.map)
    (parent name : String) (ls : List Leaf) (hp : ∀ l ∈ ls, 0 < l.side) (o : GeomOpt.Opt ℝ) :
    ∃ dim' g', addOctree none g parent name ls (some o) = some (dim', g') ∧
      (Right g g' parent name ls (some o) ↔ ∀ l ∈ occupied ls, l.side = 1) := by
  obtain ⟨g', e, h⟩ := C139_iff_partial hs none (by simp) parent name ls hp o
  refine ⟨_, g', e, h.trans ?_⟩
  cases ho : occupied ls with
  | nil => simp
  | cons l t =>
    have hl : 0 < l.side := hp l (List.mem_of_mem_filter (by
      show l ∈ occupied ls
      rw [ho]; simp))
    have hb : boxSide none ls = cbrt l.side := by unfold boxSide; rw [ho]; rfl
    rw [hb]
    constructor
    · intro h x hx
      have h1 := (cbrt_fix hl).1 (h l (by simp))
      rw [h x hx, ← h l (by simp), h1]
    · intro h x hx
      rw [h x hx, ← (cbrt_fix hl).2 (h l (by simp)), h l (by simp)]

/-- A voxel of the given side that is occupied. -/
noncomputable def voxel (x side : ℝ) : Leaf := ⟨1, ⟨x, 0, 0⟩, side⟩

theorem occupied_voxels (x a : ℝ) (ls : List Leaf) : occupied (voxel x a :: ls) = voxel x a :: occupied ls := by
  unfold occupied
  rw [List.filter_cons_of_pos (by simp [voxel]; norm_num)]

/-- **C139 fails: the side.** A single occupied leaf of side 8 gets a box of side 2, so a point of the leaf
is not in the box. -/
theorem C139_violates_side (o : GeomOpt.Opt ℝ) :
    ∃ dim' g', addOctree none create "" "o" [voxel 0 8] (some o) = some (dim', g') ∧
      ¬ Right create g' "" "o" [voxel 0 8] (some o) := by
  obtain ⟨d, g', e, h⟩ := C139_first_iff_partial (g := create) (by simp [create, Sorted]) "" "o" [voxel 0 8]
    (by simp [voxel]) o
  refine ⟨d, g', e, fun hr => ?_⟩
  have := h.1 hr (voxel 0 8) (by rw [occupied_voxels]; simp)
  norm_num [voxel] at this

/-- **C139 fails: leaves of different sides.** Of leaves of side 1 and 2, the second gets the box of the
first. -/
theorem C139_violates_static (o : GeomOpt.Opt ℝ) :
    ∃ dim' g', addOctree none create "" "o" [voxel 0 1, voxel 3 2] (some o) = some (dim', g') ∧
      (∃ f, find g'.map "o/1" = some f ∧ f.body.geoms = [⟨o, .box 1 1 1⟩]) ∧
      ¬ Right create g' "" "o" [voxel 0 1, voxel 3 2] (some o) := by
  have h0 : Sorted (create : Graph (Obj (GeomOpt.Geom ℝ))).map := by simp [create, Sorted]
  obtain ⟨d, g', e, h⟩ := C139_first_iff_partial h0 "" "o" [voxel 0 1, voxel 3 2]
    (by simp [voxel]) o
  obtain ⟨g2, e2, -, h2, -⟩ := addOctree_run h0 none "" "o" [voxel 0 1, voxel 3 2] (some o)
  rw [e, Option.some.injEq, Prod.mk.injEq] at e2
  obtain ⟨-, rfl⟩ := e2
  have hocc : occupied [voxel 0 1, voxel 3 2] = [voxel 0 1, voxel 3 2] := by
    rw [occupied_voxels, occupied_voxels]; rfl
  refine ⟨d, g', e, ⟨_, h2 1 (voxel 3 2) (by rw [hocc]; rfl), ?_⟩, fun hr => ?_⟩
  · have : boxSide none [voxel 0 1, voxel 3 2] = 1 := by
      unfold boxSide
      rw [hocc]
      exact ((cbrt_fix one_pos).2 rfl).symm
    rw [this]
    rfl
  · have := h.1 hr (voxel 3 2) (by rw [hocc]; simp)
    norm_num [voxel] at this

/-- **C139 fails: earlier calls.** After a call for a leaf of side 1, the box of a leaf of side 27 in another
scene graph has side 1, whereas in a first call it has side 3. -/
theorem C139_violates_earlier (o : GeomOpt.Opt ℝ) :
    ∃ dim g1 dim' g' dim'' g'', addOctree none create "" "o" [voxel 0 1] (some o) = some (dim, g1) ∧
      addOctree dim create "" "o" [voxel 0 27] (some o) = some (dim', g') ∧
      (∃ f, find g'.map "o/0" = some f ∧ f.body.geoms = [⟨o, .box 1 1 1⟩]) ∧
      addOctree none create "" "o" [voxel 0 27] (some o) = some (dim'', g'') ∧
      ∃ f, find g''.map "o/0" = some f ∧ f.body.geoms = [⟨o, .box 3 3 3⟩] := by
  have h0 : Sorted (create : Graph (Obj (GeomOpt.Geom ℝ))).map := by simp [create, Sorted]
  have hocc : ∀ a, occupied [voxel 0 a] = [voxel 0 a] := fun a => by rw [occupied_voxels]; rfl
  have hb : ∀ a, boxSide none [voxel 0 a] = cbrt a := fun a => by unfold boxSide; rw [hocc]; rfl
  have h1 : cbrt 1 = 1 := ((cbrt_fix one_pos).2 rfl).symm
  have h3 : cbrt 27 = 3 := by
    have h := cbrt_cube (x := 27) (by norm_num)
    have h' := cbrt_nonneg (x := 27) (by norm_num)
    nlinarith [sq_nonneg (cbrt 27 + 3), sq_nonneg (cbrt 27 - 3)]
  obtain ⟨g1, e1, -⟩ := addOctree_run h0 none "" "o" [voxel 0 1] (some o)
  obtain ⟨g2, e2, -, f2, -⟩ := addOctree_run h0 (some 1) "" "o" [voxel 0 27] (some o)
  obtain ⟨g3, e3, -, f3, -⟩ := addOctree_run h0 none "" "o" [voxel 0 27] (some o)
  rw [hocc, hb, h1] at e1
  have hb1 : boxSide (some 1) [voxel 0 27] = 1 := rfl
  rw [hb1] at f2
  rw [hb, h3] at f3
  refine ⟨some 1, g1, _, g2, _, g3, by simpa using e1, e2, ⟨_, f2 0 (voxel 0 27) (by rw [hocc]; rfl), rfl⟩, e3, _,
    f3 0 (voxel 0 27) (by rw [hocc]; rfl), rfl⟩

/-- Two unit voxels and a free one: the whole claim holds. -/
example (o : GeomOpt.Opt ℝ) : ∃ dim' g',
    addOctree none create "" "o" [voxel 0 1, ⟨0, ⟨1, 0, 0⟩, 1⟩, voxel 2 1] (some o) = some (dim', g') ∧
      Right create g' "" "o" [voxel 0 1, ⟨0, ⟨1, 0, 0⟩, 1⟩, voxel 2 1] (some o) := by
  obtain ⟨d, g', e, h⟩ := C139_first_iff_partial (g := create) (by simp [create, Sorted]) "" "o"
    [voxel 0 1, ⟨0, ⟨1, 0, 0⟩, 1⟩, voxel 2 1] (by simp [voxel]) o
  refine ⟨d, g', e, h.2 fun l hl => ?_⟩
  have := List.mem_of_mem_filter hl
  simp only [List.mem_cons, List.not_mem_nil, or_false] at this
  rcases this with rfl | rfl | rfl <;> rfl

end Verif.Octree
