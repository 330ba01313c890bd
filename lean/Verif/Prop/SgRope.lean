/-
C163: scene files written from scene graphs.
-/
import Verif.Model.SgRope
import Mathlib.Data.List.Forall2
import Mathlib.Data.List.Nodup

namespace Verif.SgRope

open Verif.CurlyScene

/-! ### Specification -/

/-- A value or its default, if it is not stated. -/
def Means (x : Option Val) (d v : Val) : Prop := x = some v ∨ (x = none ∧ v = d)

/-- The joint that is read is that of the frame. -/
def SameJoint : WJoint → Joint → Prop
  | .fixed, .fixed => True
  | .prismatic a o v, .prismatic a' o' v' => a' = .vec a ∧ o' = .num o ∧ v' = .str v
  | .revolute a o v, .revolute a' o' v' => a' = .vec a ∧ o' = .num o ∧ v' = .str v
  | _, _ => False

/-- The frame that is read has the same name, parent, transform and joint. -/
structure SameFrame (w : WFrame) (f : Frame) : Prop where
  name : f.name = w.name
  parent : f.parent = w.parent
  orient : f.orient = .quat (.vec w.quat) ∨ (f.orient = .ident ∧ w.quat = [0, 0, 0, 1])
  trans : Means f.trans (.vec [0, 0, 0]) (.vec w.trans)
  joint : SameJoint w.joint f.joint

/-- The shape that is read, with its sizes. -/
def SameShape : WShape → Geom → Prop
  | .box d, g => g.what = .shape "box" ∧ g.attr "dimension" = some (.vec d)
  | .grid d e t, g => g.what = .shape "grid" ∧ g.attr "dimension" = some (.vec d) ∧ g.attr "delta" = some (.vec e) ∧
      g.attr "thickness" = some (.num t)
  | .sphere r, g => g.what = .shape "sphere" ∧ g.attr "radius" = some (.num r)
  | .cylinder h r, g => g.what = .shape "cylinder" ∧ g.attr "height" = some (.num h) ∧ g.attr "radius" = some (.num r)
  | .cone h a b, g => g.what = .shape "cone" ∧ g.attr "height" = some (.num h) ∧
      g.attr "start_radius" = some (.num a) ∧ g.attr "end_radius" = some (.num b)
  | .mesh f, g => g.what = .mesh (.str f)

/-- The geometry that is read. -/
structure SameGeom (w : WGeom) (g : Geom) : Prop where
  shape : SameShape w.shape g
  visual : Means (g.attr "visual") (.bool true) (.bool w.visual)
  collision : Means (g.attr "collision") (.bool true) (.bool w.collision)
  color : g.attr "color" = w.color.map .vec
  alpha : g.attr "alpha" = w.alpha.map .num
  scale : g.attr "scale" = w.scale.map .num
  specular : g.attr "specular" = w.specular.map .vec
  noShadow : Means (g.attr "no-shadow") (.bool false) (.bool w.noShadow)
  types : ∀ t, .str t ∈ g.types ↔ t ∈ w.types

/-- Geometry with what can be written: no cone, no grid, and only visibility, collision, colour and alpha as options. -/
structure Plain (g : WGeom) : Prop where
  noCone : ∀ h a b, g.shape ≠ .cone h a b
  noGrid : ∀ d e t, g.shape ≠ .grid d e t
  scale : g.scale = none
  specular : g.specular = none
  noShadow : g.noShadow = false
  types : g.types = []

/-- The name of the configuration of a joint. -/
def varName : WJoint → Option String
  | .fixed => none
  | .prismatic _ _ v => some v
  | .revolute _ _ v => some v

/-- A frame whose names are words, and that is not its own parent. -/
structure Named (w : WFrame) : Prop where
  name : isWord w.name = true
  parent : ∀ p, w.parent = some p → isWord p = true ∧ p ≠ w.name
  var : ∀ v, varName w.joint = some v → isWord v = true

/-! ### Lemmas -/

/-- How a property of geometry is read. -/
def rd (e : String × Val) : String × Val :=
  if e.1 = "visual" ∨ e.1 = "collision" then (e.1, .bool false) else e

theorem geomLoop_stmts (p0 : Props) (pc : List Props) : ∀ (p q : Props),
    (∀ e ∈ p, e.1 ∈ geomKeys ∨ ((e.1 = "visual" ∨ e.1 = "collision") ∧ e.2 = .num 0)) → q = p0 →
    ∀ acc, geomLoop [] (stmts p) acc pc = some ((p.map rd).reverse ++ acc, pc)
  | [], _, _, _, acc => by simp [stmts, geomLoop]
  | (k, v) :: p, q, h, hq, acc => by
      have ih := geomLoop_stmts p0 pc p q (fun e he => h e (by simp [he])) hq
      simp only [stmts, List.map_cons] at ih ⊢
      have hk := h (k, v) (by simp)
      simp only at hk
      rcases hk with hk | ⟨hk, rfl⟩
      · have hne : ¬(k = "visual" ∨ k = "collision") := by
          rintro (rfl | rfl) <;> simp [geomKeys] at hk
        simp only [geomLoop, if_pos hk, ih, rd, if_neg hne, addProp]
        simp
      · have hne : k ∉ geomKeys := by rcases hk with rfl | rfl <;> simp [geomKeys]
        have hk' : k = "visual" ∨ k = "collision" ∨ k = "no-shadow" := by tauto
        simp only [geomLoop, if_neg hne, if_pos hk', addPropBool, Option.bind_some, ih, rd, if_pos hk]
        simp

theorem geomProps_keys {g : WGeom} {p : Props} (h : geomProps g = some p) :
    ∀ e ∈ p, e.1 ∈ geomKeys ∨ ((e.1 = "visual" ∨ e.1 = "collision") ∧ e.2 = .num 0) := by
  simp only [geomProps, Option.map_eq_some_iff] at h
  obtain ⟨s, hs, rfl⟩ := h
  intro e he
  simp only [List.mem_append] at he
  rcases he with (((he | he) | he) | he) | he
  · split_ifs at he <;> simp at he; subst he; simp
  · split_ifs at he <;> simp at he; subst he; simp
  · left
    cases hsh : g.shape <;> rw [hsh] at hs <;> simp only [shapeProps, Option.some.injEq, reduceCtorEq] at hs <;>
      subst hs <;> simp at he <;> (try rcases he with rfl | rfl | rfl) <;>
      simp [geomKeys]
  · left; cases hc : g.color <;> simp [hc, opt] at he; subst he; simp [geomKeys]
  · left; cases hc : g.alpha <;> simp [hc, opt] at he; subst he; simp [geomKeys]

theorem getProp_append (a b : Props) (k : String) : getProp (a ++ b) k = (getProp a k).or (getProp b k) := by
  induction a with
  | nil => simp [getProp]
  | cons e a ih =>
      obtain ⟨m, x⟩ := e
      by_cases h : m = k
      · simp [getProp, h]
      · simp [getProp, h, ih]

theorem shapeProps_rd {sh : WShape} {s : Props} (h : shapeProps sh = some s) : s.map rd = s := by
  cases sh <;> simp only [shapeProps, Option.some.injEq, reduceCtorEq] at h <;> subst h <;> simp [rd]

theorem opt_rd {α : Type} (k : String) (f : α → Val) (o : Option α) (hk : k ≠ "visual" ∧ k ≠ "collision") (key : String) :
    getProp ((opt k f o).map rd).reverse key = if k = key then o.map f else none := by
  cases o <;> simp [opt, rd, hk.1, hk.2, getProp]

/-- What is read of geometry. -/
theorem getProp_geom {g : WGeom} {s p : Props} (hs : shapeProps g.shape = some s) (h : geomProps g = some p) (k : String) :
    getProp (p.map rd).reverse k =
      (if "alpha" = k then g.alpha.map .num else none).or ((if "color" = k then g.color.map .vec else none).or
        ((getProp s.reverse k).or ((if "collision" = k ∧ g.collision = false then some (.bool false) else none).or
          (if "visual" = k ∧ g.visual = false then some (.bool false) else none)))) := by
  simp only [geomProps, hs, Option.map_some, Option.some.injEq] at h
  subst h
  simp only [List.map_append, List.reverse_append, getProp_append, shapeProps_rd hs,
    opt_rd "alpha" Val.num g.alpha (by decide), opt_rd "color" Val.vec g.color (by decide)]
  congr 3
  cases g.visual <;> cases g.collision <;> simp [rd, getProp]

theorem geom_isa {g : WGeom} {p : Props} (h : geomProps g = some p) :
    propertyClasses (p.map rd).reverse = [] := by
  have : ∀ e ∈ p, e.1 ≠ "isa" := by
    intro e he q
    rcases geomProps_keys h e he with h1 | ⟨h1 | h1, -⟩
    · rw [q] at h1; simp [geomKeys] at h1
    · rw [q] at h1; simp at h1
    · rw [q] at h1; simp at h1
  simp only [propertyClasses, List.map_eq_nil_iff, List.filter_eq_nil_iff, List.mem_reverse, List.mem_map]
  rintro _ ⟨e, he, rfl⟩
  have h1 : (rd e).1 = e.1 := by unfold rd; split_ifs <;> rfl
  simp only [h1, decide_eq_true_eq]
  exact this e he

/-- Geometry that is written is read. -/
theorem addGeom_write {g : WGeom} (hg : Plain g) {p : Props} (h : geomProps g = some p) (n : String) :
    ∃ x, addGeom [] (stmts p) n = some (n, x) ∧ SameGeom g x := by
  have hl := geomLoop_stmts [] [] p [] (geomProps_keys h) rfl []
  obtain ⟨s, hs⟩ : ∃ s, shapeProps g.shape = some s := by
    simp only [geomProps, Option.map_eq_some_iff] at h
    exact ⟨h.choose, h.choose_spec.1⟩
  have hp := getProp_geom hs h
  have hi := geom_isa h
  have hkey : ∀ k, k ∉ ["alpha", "color", "collision", "visual"] → getProp (p.map rd).reverse k = getProp s.reverse k := by
    intro k hk
    simp only [List.mem_cons, List.not_mem_nil, or_false, not_or] at hk
    rw [hp, if_neg (Ne.symm hk.1), if_neg (Ne.symm hk.2.1), if_neg (fun q => hk.2.2.1 q.1.symm),
      if_neg (fun q => hk.2.2.2 q.1.symm)]
    simp
  have hopt : ∀ k ∈ ["alpha", "color", "collision", "visual", "parent", "scale", "specular", "no-shadow"],
      getProp s.reverse k = none := by
    intro k hk
    simp only [List.mem_cons, List.not_mem_nil, or_false] at hk
    cases hsh : g.shape <;> rw [hsh] at hs <;> simp only [shapeProps, Option.some.injEq, reduceCtorEq] at hs <;>
      subst hs <;> rcases hk with rfl | rfl | rfl | rfl | rfl | rfl | rfl | rfl <;> simp [getProp]
  have hpar : getProp (p.map rd).reverse "parent" = none := by
    rw [hkey _ (by decide), hopt _ (by decide)]
  have hw : ∃ w, whatOf (p.map rd).reverse = some w ∧ SameShape g.shape ⟨w, getProp (p.map rd).reverse, []⟩ := by
    have k1 := hkey "shape" (by decide)
    have k2 := hkey "mesh" (by decide)
    have k3 := hkey "dimension" (by decide)
    have k4 := hkey "radius" (by decide)
    have k5 := hkey "height" (by decide)
    simp only [whatOf, k1, k2]
    cases hsh : g.shape <;> rw [hsh] at hs <;> simp only [shapeProps, Option.some.injEq, reduceCtorEq] at hs <;>
      subst hs <;> simp [getProp, shapes, SameShape, k3, k4, k5]
    case grid a b c => exact absurd hsh (hg.noGrid a b c)
  obtain ⟨w, hw1, hw2⟩ := hw
  refine ⟨⟨w, getProp (p.map rd).reverse, []⟩, ?_, ?_⟩
  · simp only [addGeom, hl, Option.bind_some, classProperties, List.flatten_nil, List.append_nil, insertGeom, hw1, parentOf,
      hpar, hi, Option.map_some]
  · refine ⟨hw2, ?_, ?_, ?_, ?_, ?_, ?_, ?_, ?_⟩
    · simp only [Means, hp, hopt "visual" (by decide)]
      cases g.visual <;> simp
    · simp only [Means, hp, hopt "collision" (by decide)]
      cases g.collision <;> simp
    · simp only [hp, hopt "color" (by decide)]; simp
    · simp only [hp, hopt "alpha" (by decide)]; simp
    · simp only [hg.scale, hkey "scale" (by decide), hopt "scale" (by decide), Option.map_none]
    · simp only [hg.specular, hkey "specular" (by decide), hopt "specular" (by decide), Option.map_none]
    · simp only [Means, hg.noShadow, hkey "no-shadow" (by decide), hopt "no-shadow" (by decide)]; simp
    · intro t; simp [hg.types]

theorem frameStmts_props (n : String) (b : List Stmt) : ∀ (p : Props) (l : Loop),
    (∀ e ∈ p, e.1 ∈ frameKeys ∨ e.1 = "parent") →
    frameStmts [] n none (stmts p ++ b) l = frameStmts [] n none b { l with props := p.reverse ++ l.props }
  | [], l, _ => by simp [stmts]
  | (k, v) :: p, l, h => by
      have hk := h (k, v) (by simp)
      simp only at hk
      have : frameStmt [] n none (.prop k v) l = some { l with props := (k, v) :: l.props } := by
        simp only [frameStmt]
        split_ifs with h1 h2
        · rfl
        · rfl
        · tauto
        · tauto
      simp only [stmts, List.map_cons, List.cons_append, frameStmts, this, Option.bind_some]
      have ih := frameStmts_props n b p { l with props := (k, v) :: l.props } fun e he => h e (by simp [he])
      simp only [stmts] at ih
      rw [ih]
      simp

theorem frameStmts_geoms (n : String) : ∀ (gs : List WGeom) (b : List Stmt), writeGeoms gs = some b →
    (∀ g ∈ gs, Plain g) → ∃ xs, List.Forall₂ SameGeom gs xs ∧ ∀ l : Loop, frameStmts [] n none b l =
      some { l with acc := { l.acc with geoms := l.acc.geoms ++ xs.map fun x => (n, x) } }
  | [], b, h, _ => by
      simp only [writeGeoms, Option.some.injEq] at h
      subst h
      exact ⟨[], .nil, fun l => by simp [frameStmts]⟩
  | g :: gs, b, h, hp => by
      simp only [writeGeoms, Option.bind_eq_some_iff, Option.map_eq_some_iff] at h
      obtain ⟨p, h1, r, h2, rfl⟩ := h
      obtain ⟨xs, i1, i2⟩ := frameStmts_geoms n gs r h2 fun g hg => hp g (by simp [hg])
      obtain ⟨x, j1, j2⟩ := addGeom_write (hp g (by simp)) h1 n
      refine ⟨x :: xs, .cons j2 i1, fun l => ?_⟩
      simp only [frameStmts, frameStmt, j1, Option.map_some, Option.bind_some, i2]
      simp

theorem frameProps_keys (w : WFrame) : ∀ e ∈ frameProps w, e.1 ∈ frameKeys ∨ e.1 = "parent" := by
  intro e he
  simp only [frameProps, List.mem_append] at he
  rcases he with (((he | he) | he) | he) | he
  · cases hc : w.parent <;> simp [hc, opt] at he; subst he; simp
  · simp at he; subst he; simp [frameKeys]
  · split_ifs at he <;> simp at he; subst he; simp [frameKeys]
  · split_ifs at he <;> simp at he; subst he; simp [frameKeys]
  · cases hj : w.joint <;> rw [hj] at he <;> simp [jointProps] at he <;> rcases he with rfl | rfl | rfl <;>
      simp [frameKeys]

/-- What is read of a frame. -/
theorem getProp_frame (w : WFrame) (k : String) : getProp (frameProps w).reverse k =
    (getProp (jointProps w.joint).reverse k).or
      ((if "quaternion" = k ∧ w.quat ≠ [0, 0, 0, 1] then some (.vec w.quat) else none).or
        ((if "translation" = k ∧ w.trans ≠ [0, 0, 0] then some (.vec w.trans) else none).or
          ((if "type" = k then some (.str (typeName w.joint)) else none).or
            (if "parent" = k then w.parent.map .str else none)))) := by
  simp only [frameProps, List.reverse_append, getProp_append]
  congr 1
  congr 1
  · by_cases h : w.quat = [0, 0, 0, 1] <;> simp [h, getProp]
  congr 1
  · by_cases h : w.trans = [0, 0, 0] <;> simp [h, getProp]
  congr 1
  cases w.parent <;> simp [opt, getProp]

theorem insertFrame_write {w : WFrame} (hw : Named w) :
    ∃ f, insertFrame w.name (frameProps w).reverse none = some f ∧ SameFrame w f := by
  have hg := getProp_frame w
  have hj : ∀ k ∈ ["quaternion", "rpy", "translation", "type", "parent"], getProp (jointProps w.joint).reverse k = none := by
    intro k hk
    simp only [List.mem_cons, List.not_mem_nil, or_false] at hk
    cases w.joint <;> rcases hk with rfl | rfl | rfl | rfl | rfl <;> simp [jointProps, getProp]
  have hpar : parentOf (frameProps w).reverse none = some w.parent := by
    simp only [parentOf, hg, hj "parent" (by decide)]
    cases w.parent <;> simp
  have hjoint : ∃ j, jointOf w.name (frameProps w).reverse = some j ∧ SameJoint w.joint j := by
    have ht : getProp (frameProps w).reverse "type" = some (.str (typeName w.joint)) := by
      rw [hg, hj "type" (by decide)]; simp
    have hv : ∀ k ∈ ["axis", "offset", "variable"],
        getProp (frameProps w).reverse k = getProp (jointProps w.joint).reverse k := by
      intro k hk
      simp only [List.mem_cons, List.not_mem_nil, or_false] at hk
      rw [hg]
      rcases hk with rfl | rfl | rfl <;> simp
    simp only [jointOf, ht, hv "axis" (by decide), hv "offset" (by decide), hv "variable" (by decide)]
    cases w.joint <;> simp [typeName, jointProps, getProp, SameJoint]
  obtain ⟨j, j1, j2⟩ := hjoint
  refine ⟨⟨w.name, w.parent, getOrientation (frameProps w).reverse, getProp (frameProps w).reverse "translation", j⟩,
    ?_, rfl, rfl, ?_, ?_, j2⟩
  · have : w.parent ≠ some w.name := fun q => (hw.parent _ q).2 rfl
    simp only [insertFrame, hpar, j1, Option.bind_some, if_neg this]
  · simp only [getOrientation, hg, hj "quaternion" (by decide), hj "rpy" (by decide)]
    by_cases h : w.quat = [0, 0, 0, 1] <;> simp [h]
  · simp only [Means, hg, hj "translation" (by decide)]
    by_cases h : w.trans = [0, 0, 0] <;> simp [h]

/-- What is read for a frame: the frame and its geometry. -/
def SameAll (w : WFrame) (r : Frame × List Geom) : Prop := SameFrame w r.1 ∧ List.Forall₂ SameGeom w.geoms r.2

theorem addThings_write : ∀ (ws : List WFrame) (ts : List Thing), writeFrames ws = some ts →
    (∀ w ∈ ws, Named w ∧ ∀ g ∈ w.geoms, Plain g) → ∃ rs, List.Forall₂ SameAll ws rs ∧
      ∀ a : Acc, addThings ts [] a = some ⟨a.frames ++ rs.map Prod.fst,
        a.geoms ++ rs.flatMap fun r => r.2.map fun x => (r.1.name, x)⟩
  | [], ts, h, _ => by
      simp only [writeFrames, Option.some.injEq] at h
      subst h
      exact ⟨[], .nil, fun a => by simp [addThings]⟩
  | w :: ws, ts, h, hw => by
      simp only [writeFrames, writeFrame, Option.bind_eq_some_iff, Option.map_eq_some_iff] at h
      obtain ⟨t, ⟨b, h1, rfl⟩, r, h2, rfl⟩ := h
      obtain ⟨rs, i1, i2⟩ := addThings_write ws r h2 fun w hm => hw w (by simp [hm])
      obtain ⟨hn, hp⟩ := hw w (by simp)
      obtain ⟨xs, j1, j2⟩ := frameStmts_geoms w.name w.geoms b h1 hp
      obtain ⟨f, k1, k2⟩ := insertFrame_write hn
      refine ⟨(f, xs) :: rs, .cons ⟨k2, j1⟩ i1, fun a => ?_⟩
      simp only [addThings, addFrame, frameStmts_props w.name b _ _ (frameProps_keys w), j2, Option.bind_some,
        classProperties, List.reverse_nil, List.flatten_nil, List.append_nil, k1, Option.map_some, i2]
      simp [k2.name]

theorem words_append (a b : List Stmt) : words (a ++ b) = words a ++ words b := by
  induction a with
  | nil => rfl
  | cons s a ih =>
      cases s with
      | prop k v =>
          cases v with
          | str v =>
              simp only [List.cons_append, words]
              split_ifs <;> simp [ih]
          | _ => simp [words, ih]
      | frame n b => simp [words, ih]
      | geom b => simp [words, ih]

theorem words_geoms : ∀ (gs : List WGeom) (b : List Stmt), writeGeoms gs = some b → words b = []
  | [], b, h => by simp only [writeGeoms, Option.some.injEq] at h; subst h; rfl
  | g :: gs, b, h => by
      simp only [writeGeoms, Option.bind_eq_some_iff, Option.map_eq_some_iff] at h
      obtain ⟨p, h1, r, h2, rfl⟩ := h
      simp only [words]
      exact words_geoms gs r h2

theorem words_frame {w : WFrame} (hw : Named w) : (words (stmts (frameProps w))).all isWord = true := by
  have ht : isWord (typeName w.joint) = true := by
    cases w.joint <;> simp only [typeName] <;> decide +kernel
  simp only [frameProps, stmts, List.map_append, words_append, List.all_append, Bool.and_eq_true]
  refine ⟨⟨⟨⟨?_, ?_⟩, ?_⟩, ?_⟩, ?_⟩
  · cases hp : w.parent with
    | none => simp [opt, words]
    | some p => simp [opt, words, (hw.parent p hp).1]
  · simp [words, ht]
  · split_ifs <;> simp [words]
  · split_ifs <;> simp [words]
  · cases hj : w.joint with
    | fixed => simp [jointProps, words]
    | prismatic a o v => simp [jointProps, words, hw.var v (by rw [hj]; rfl)]
    | revolute a o v => simp [jointProps, words, hw.var v (by rw [hj]; rfl)]

theorem all_words : ∀ (ws : List WFrame) (ts : List Thing), writeFrames ws = some ts → (∀ w ∈ ws, Named w) →
    ts.all wellNamed = true
  | [], ts, h, _ => by
      simp only [writeFrames, Option.some.injEq] at h
      subst h; rfl
  | w :: ws, ts, h, hw => by
      simp only [writeFrames, writeFrame, Option.bind_eq_some_iff, Option.map_eq_some_iff] at h
      obtain ⟨t, ⟨b, h1, rfl⟩, r, h2, rfl⟩ := h
      have ih := all_words ws r h2 fun w hm => hw w (by simp [hm])
      simp only [List.all_cons, ih, Bool.and_true, wellNamed, words_append, words_geoms _ _ h1, List.append_nil,
        words_frame (hw w (by simp)), (hw w (by simp)).name]

/-! ### Properties -/

/-- C163, partial: a file that is written from a scene graph whose names are words and whose geometry is plain is read
back as the same frames, with the same geometry in the same order. -/
theorem C163_roundtrip_partial (sc : WScene) (hd : (sc.frames.map WFrame.name).Nodup)
    (hw : ∀ w ∈ sc.frames, Named w ∧ ∀ g ∈ w.geoms, Plain g) :
    ∃ ts r, write sc = some ts ∧ readBack ts = some r ∧
      (∀ w ∈ sc.frames, ∃ f, r.frame w.name = some f ∧ SameFrame w f ∧ List.Forall₂ SameGeom w.geoms (r.geoms w.name)) ∧
      ∀ n, (∀ w ∈ sc.frames, w.name ≠ n) → r.frame n = none ∧ r.geoms n = [] := by
  have hwg : ∀ gs : List WGeom, (∀ g ∈ gs, Plain g) → ∃ b, writeGeoms gs = some b := by
    intro gs
    induction gs with
    | nil => intro _; exact ⟨_, rfl⟩
    | cons g gs ih =>
        intro h
        obtain ⟨b, hb⟩ := ih fun g hg => h g (by simp [hg])
        have : ∃ p, geomProps g = some p := by
          have hc := (h g (by simp)).noCone
          simp only [geomProps]
          cases hs : g.shape <;> simp [shapeProps]
          exact absurd hs (hc _ _ _)
        obtain ⟨p, hp⟩ := this
        exact ⟨_, by simp only [writeGeoms, hp, hb, Option.bind_some, Option.map_some]; rfl⟩
  have hwf : ∀ ws : List WFrame, (∀ w ∈ ws, ∀ g ∈ w.geoms, Plain g) → ∃ ts, writeFrames ws = some ts := by
    intro ws
    induction ws with
    | nil => intro _; exact ⟨_, rfl⟩
    | cons w ws ih =>
        intro h
        obtain ⟨b, hb⟩ := ih fun g hg => h g (by simp [hg])
        obtain ⟨p, hp⟩ := hwg w.geoms (h w (by simp))
        exact ⟨_, by simp only [writeFrames, writeFrame, hp, hb, Option.bind_some, Option.map_some]; rfl⟩
  obtain ⟨ts, hts⟩ := hwf sc.frames fun w hm => (hw w hm).2
  obtain ⟨rs, h1, h2⟩ := addThings_write sc.frames ts hts hw
  have hname : ∀ (ws : List WFrame) (rs : List (Frame × List Geom)), List.Forall₂ SameAll ws rs →
      rs.map (fun r => r.1.name) = ws.map WFrame.name := by
    intro ws rs h
    induction h with
    | nil => rfl
    | cons h _ ih => simp [ih, h.1.name]
  have hnd : (rs.map fun r => r.1.name).Nodup := by rw [hname _ _ h1]; exact hd
  have hfind : ∀ rs : List (Frame × List Geom), (rs.map fun r => r.1.name).Nodup → ∀ r ∈ rs,
      frameAt (rs.map Prod.fst) r.1.name = some r.1 := by
    intro rs
    induction rs with
    | nil => simp
    | cons x rs ih =>
        intro hn r hr
        simp only [List.map_cons, List.nodup_cons] at hn
        simp only [frameAt, List.map_cons, List.find?_cons]
        rcases List.mem_cons.1 hr with rfl | hr
        · simp
        · have : x.1.name ≠ r.1.name := fun e => hn.1 (List.mem_map.2 ⟨r, hr, e.symm⟩)
          simp only [this, decide_false]
          exact ih hn.2 r hr
  have hgeo : ∀ rs : List (Frame × List Geom), (rs.map fun r => r.1.name).Nodup → ∀ r ∈ rs,
      ((rs.flatMap fun r => r.2.map fun x => (r.1.name, x)).filter fun g => g.1 = r.1.name).map Prod.snd = r.2 := by
    intro rs
    induction rs with
    | nil => simp
    | cons x rs ih =>
        intro hn r hr
        simp only [List.map_cons, List.nodup_cons] at hn
        simp only [List.flatMap_cons, List.filter_append, List.map_append]
        rcases List.mem_cons.1 hr with rfl | hr
        · have e1 : ((r.2.map fun x => (r.1.name, x)).filter fun g => g.1 = r.1.name) = r.2.map fun x => (r.1.name, x) := by
            rw [List.filter_eq_self]; simp
          have e2 : ((rs.flatMap fun r => r.2.map fun x => (r.1.name, x)).filter fun g => g.1 = r.1.name) = [] := by
            rw [List.filter_eq_nil_iff]
            intro g hg
            simp only [List.mem_flatMap, List.mem_map] at hg
            obtain ⟨y, hy, z, _, rfl⟩ := hg
            simp only [decide_eq_true_eq]
            exact fun e => hn.1 (List.mem_map.2 ⟨y, hy, e⟩)
          rw [e1, e2]
          simp [Function.comp_def]
        · have e1 : ((x.2.map fun y => (x.1.name, y)).filter fun g => g.1 = r.1.name) = [] := by
            rw [List.filter_eq_nil_iff]
            intro g hg
            simp only [List.mem_map] at hg
            obtain ⟨z, _, rfl⟩ := hg
            simp only [decide_eq_true_eq]
            exact fun e => hn.1 (List.mem_map.2 ⟨r, hr, e.symm⟩)
          rw [e1]
          simpa using ih hn.2 r hr
  have hload : load ts = some ⟨frameAt (rs.map Prod.fst),
      fun n => ((rs.flatMap fun r => r.2.map fun x => (r.1.name, x)).filter fun g => g.1 = n).map Prod.snd⟩ := by
    simp only [load, h2, Option.bind_some, List.nil_append]
    rw [if_pos]
    rw [List.all_eq_true]
    intro g hg
    simp only [List.mem_flatMap, List.mem_map] at hg
    obtain ⟨y, hy, z, _, rfl⟩ := hg
    rw [hfind rs hnd y hy]; rfl
  refine ⟨ts, ⟨frameAt (rs.map Prod.fst),
    fun n => ((rs.flatMap fun r => r.2.map fun x => (r.1.name, x)).filter fun g => g.1 = n).map Prod.snd⟩, hts, ?_, ?_, ?_⟩
  · unfold readBack
    rw [all_words _ _ hts fun w hm => (hw w hm).1, if_pos rfl, hload]
  · intro w hm
    obtain ⟨r, hr, hs⟩ : ∃ r ∈ rs, SameAll w r := by
      have : ∀ (ws : List WFrame) (rs : List (Frame × List Geom)), List.Forall₂ SameAll ws rs → w ∈ ws →
          ∃ r ∈ rs, SameAll w r := by
        intro ws rs h hm
        induction h with
        | nil => simp at hm
        | cons h _ ih =>
            rcases List.mem_cons.1 hm with rfl | hm
            · exact ⟨_, by simp, h⟩
            · obtain ⟨r, hr, hs⟩ := ih hm
              exact ⟨r, by simp [hr], hs⟩
      exact this _ _ h1 hm
    refine ⟨r.1, ?_, hs.1, ?_⟩
    · rw [← hs.1.name]; exact hfind rs hnd r hr
    · rw [← hs.1.name]; simp only [hgeo rs hnd r hr]; exact hs.2
  · intro n hn
    have hn' : ∀ r ∈ rs, r.1.name ≠ n := by
      intro r hr e
      have : n ∈ sc.frames.map WFrame.name := by
        rw [← hname _ _ h1]; exact List.mem_map.2 ⟨r, hr, e⟩
      obtain ⟨w, hm, e⟩ := List.mem_map.1 this
      exact hn w hm e
    constructor
    · simp only [frameAt, List.find?_eq_none, List.mem_map]
      rintro _ ⟨r, hr, rfl⟩
      simpa using hn' r hr
    · simp only [List.map_eq_nil_iff, List.filter_eq_nil_iff, List.mem_flatMap, List.mem_map]
      rintro _ ⟨r, hr, z, _, rfl⟩
      simpa using hn' r hr

theorem startsWith_iff : ∀ k s : List Char, startsWith k s = true ↔
    ∃ r, s = k ++ r ∧ ∀ c t, r = c :: t → wordChar c = false
  | [], [] => by simp [startsWith]
  | [], c :: s => by
      simp only [startsWith, List.nil_append, Bool.not_eq_true']
      exact ⟨fun h => ⟨_, rfl, fun a t e => by cases e; exact h⟩, fun ⟨r, h, h2⟩ => h2 c s h.symm⟩
  | a :: k, [] => by simp [startsWith]
  | a :: k, c :: s => by
      simp only [startsWith, Bool.and_eq_true, beq_iff_eq, startsWith_iff k s, List.cons_append, List.cons.injEq]
      constructor
      · rintro ⟨rfl, r, rfl, h⟩; exact ⟨r, ⟨rfl, rfl⟩, h⟩
      · rintro ⟨r, ⟨rfl, rfl⟩, h⟩; exact ⟨rfl, r, rfl, h⟩

/-- C163, names: those that are read back are the words of letters, digits, dashes and underscores that begin with a letter,
and in which a keyword at the beginning is followed by a letter, digit or underscore. -/
theorem C163_words (s : String) : isWord s = true ↔
    (∃ c l, s.toList = c :: l ∧ c.isAlpha = true ∧ ∀ x ∈ l, x.isAlphanum = true ∨ x = '_' ∨ x = '-') ∧
    ∀ k ∈ ["frame", "geometry", "class", "object", "include", "allow_collision", "def", "pi", "deg"],
      ∀ r, s.toList = k.toList ++ r → ∃ c t, r = c :: t ∧ (c.isAlphanum = true ∨ c = '_') := by
  simp only [isWord, Bool.and_eq_true, List.all_eq_true, Bool.not_eq_true']
  refine and_congr ?_ (forall₂_congr fun k _ => ?_)
  · cases s.toList with
    | nil => simp
    | cons c l => simp [or_assoc]
  · rw [← Bool.not_eq_true, startsWith_iff]
    constructor
    · intro h r hr
      by_contra hc
      refine h ⟨r, hr, fun c t e => ?_⟩
      by_contra hw
      refine hc ⟨c, t, e, ?_⟩
      simp only [wordChar, Bool.or_eq_false_iff, not_and, Bool.not_eq_false, beq_iff_eq] at hw
      cases ha : c.isAlphanum
      · exact .inr (by simpa using hw ha)
      · exact .inl rfl
    · rintro h ⟨r, hr, h2⟩
      obtain ⟨c, t, e, hc⟩ := h r hr
      have := h2 c t e
      simp only [wordChar, Bool.or_eq_false_iff, beq_eq_false_iff_ne] at this
      rcases hc with hc | hc
      · rw [this.1] at hc; simp at hc
      · exact this.2 hc

/-! ### Examples and violations -/

def ball : WGeom := ⟨.sphere 2, true, false, some [1, 0, 0], some (1 / 2), none, none, false, []⟩

def post : WGeom := ⟨.cylinder 3 1, true, true, none, none, none, none, false, []⟩

def base : WFrame := ⟨"base", none, [0, 0, 0, 1], [0, 0, 1], .fixed, none, none, [post, ball]⟩

def arm : WFrame := ⟨"arm-1", some "base", [1, 0, 0, 0], [0, 0, 0], .revolute [0, 0, 1] (1 / 4) "q_1", none, none, [ball]⟩

example : (([base, arm].map WFrame.name).Nodup) ∧ ∀ w ∈ [base, arm], Named w ∧ ∀ g ∈ w.geoms, Plain g := by
  refine ⟨by decide +kernel, ?_⟩
  have hb : ∀ g ∈ [post, ball], Plain g := by
    intro g hg
    simp only [List.mem_cons, List.not_mem_nil, or_false] at hg
    rcases hg with rfl | rfl <;> constructor <;> simp [post, ball]
  intro w hw
  simp only [List.mem_cons, List.not_mem_nil, or_false] at hw
  rcases hw with rfl | rfl
  · exact ⟨⟨by decide +kernel, by simp [base], by simp [base, varName]⟩, hb⟩
  · refine ⟨⟨by decide +kernel, ?_, ?_⟩, fun g hg => hb g (by simp [arm] at hg; simp [hg])⟩
    · intro p hp
      simp only [arm, Option.some.injEq] at hp
      subst hp
      exact ⟨by decide +kernel, by decide⟩
    · intro v hv
      simp only [arm, varName, Option.some.injEq] at hv
      subst hv
      decide +kernel

example : ((write ⟨[base, arm], []⟩).bind readBack).map (fun r => (r.frame "arm-1", (r.geoms "base").map fun g =>
    (g.what, g.attr "collision", g.attr "alpha"))) =
    some (some ⟨"arm-1", some "base", .quat (.vec [1, 0, 0, 0]), none, .revolute (.vec [0, 0, 1]) (.num (1 / 4)) (.str "q_1")⟩,
      [(.shape "cylinder", none, none), (.shape "sphere", some (.bool false), some (.num (1 / 2)))]) := by decide +kernel

/-- C163 fails: allowed collisions, limits of joints and masses are not written. -/
theorem C163_limits_violates : ∃ a b c d : WScene, (write a).isSome = true ∧ write a = write b ∧ write a = write c ∧
    write a = write d ∧ a.allowed ≠ b.allowed ∧ a.frames.map (·.limits) ≠ c.frames.map (·.limits) ∧
      a.frames.map (·.mass) ≠ d.frames.map (·.mass) :=
  ⟨⟨[base, arm], []⟩, ⟨[base, arm], [("arm-1", "base")]⟩, ⟨[base, { arm with limits := some (0, 1) }], []⟩,
    ⟨[base, { arm with mass := some 1 }], []⟩, rfl, rfl, rfl, rfl, by decide +kernel, by decide +kernel, by decide +kernel⟩

/-- C163 fails: scale, specular colour, shadows and classes of geometry are not written. -/
theorem C163_options_violates (w : WFrame) (g : WGeom) (sc : Option Rat) (sp : Option (List Rat)) (sh : Bool)
    (t : List String) :
    write ⟨[{ w with geoms := [{ g with scale := sc, specular := sp, noShadow := sh, types := t }] }], []⟩ =
      write ⟨[{ w with geoms := [g] }], []⟩ := rfl

/-- C163 fails: the distance of the lines of a grid is not written, and so not read. -/
theorem C163_grid_violates (d e : List Rat) (t : Rat) : ∃ x, ((write ⟨[⟨"f", none, [0, 0, 0, 1], [0, 0, 0], .fixed, none,
    none, [⟨.grid d e t, true, true, none, none, none, none, false, []⟩]⟩], []⟩).bind readBack).map (fun r => r.geoms "f") =
      some [x] ∧ x.what = .shape "grid" ∧ x.attr "dimension" = some (.vec d) ∧ x.attr "delta" = none := by
  have hw : write ⟨[⟨"f", none, [0, 0, 0, 1], [0, 0, 0], .fixed, none,
    none, [⟨.grid d e t, true, true, none, none, none, none, false, []⟩]⟩], []⟩ =
    some [.frame "f" [.prop "type" (.str "fixed"), .geom [.prop "shape" (.str "grid"), .prop "dimension" (.vec d),
      .prop "thickness" (.num t)]]] := by
    simp [write, writeFrames, writeFrame, writeGeoms, geomProps, shapeProps, opt, stmts, frameProps, typeName, jointProps]
  have h1 : isWord "f" = true := by decide +kernel
  have h2 : isWord "fixed" = true := by decide +kernel
  refine ⟨⟨.shape "grid", getProp [("thickness", .num t), ("dimension", .vec d), ("shape", .str "grid")], []⟩, ?_, rfl,
    by simp [getProp], by simp [getProp]⟩
  rw [hw]
  simp [readBack, wellNamed, words, h1, h2, load, addThings, addFrame, frameStmts, frameStmt, addGeom, geomLoop, geomKeys, frameKeys, addProp,
    classProperties, insertGeom, whatOf, shapes, parentOf, getProp, propertyClasses, insertFrame, jointOf, frameAt]

/-- C163 fails: a scene graph with a cone cannot be written. -/
theorem C163_cone_violates : write ⟨[{ base with geoms := [{ ball with shape := .cone 1 2 3 }] }], []⟩ = none := by
  decide +kernel

/-- C163 fails: a scene graph with a frame whose name begins with a keyword and a dash is written, but not read. -/
theorem C163_word_violates : ∃ ts, write ⟨[{ base with name := "frame-1" }], []⟩ = some ts ∧
    (readBack ts).isNone = true :=
  ⟨_, rfl, by decide +kernel⟩

end Verif.SgRope
