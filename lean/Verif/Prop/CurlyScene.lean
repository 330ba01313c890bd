/-
C158: frames, geometry and classes of scene files.
-/
import Verif.Proof.CurlyScene

namespace Verif.CurlyScene

theorem find_frame (os : List Occ) (fs : List Frame) (h : List.Forall₂ FrameSpec os fs)
    (hd : (names os).Nodup) : (∀ o ∈ os, ∃ f, frameAt fs o.name = some f ∧ FrameSpec o f) ∧
    ∀ n, (∀ o ∈ os, o.name ≠ n) → frameAt fs n = none := by
  induction h with
  | nil => exact ⟨by simp, fun n _ => rfl⟩
  | @cons o f os fs h1 _ ih =>
      simp only [names, List.map_cons, List.nodup_cons] at hd
      have ih := ih hd.2
      constructor
      · intro o' ho'
        rcases List.mem_cons.1 ho' with rfl | ho'
        · exact ⟨f, by simp [frameAt, h1.name], h1⟩
        · obtain ⟨f', e1, e2⟩ := ih.1 o' ho'
          refine ⟨f', ?_, e2⟩
          have : f.name ≠ o'.name := by
            rw [h1.name]
            intro e
            exact hd.1 (by rw [e]; exact List.mem_map.2 ⟨o', ho', rfl⟩)
          simpa [frameAt, this] using e1
      · intro n hn
        have : f.name ≠ n := by rw [h1.name]; exact hn o (by simp)
        have := ih.2 n fun o ho => hn o (by simp [ho])
        simp_all [frameAt]

theorem occ_noParent (ts : List Thing) : ∀ ds : Defs, NoParent ts → (∀ d ∈ ds, own "parent" d.2 = none) →
    (∀ e ∈ allGeoms ds ts, ∀ d ∈ e.1, own "parent" d.2 = none) := by
  induction ts with
  | nil => intro ds _ _ e he; simp [allGeoms] at he
  | cons t ts ih =>
      intro ds hn hds e he
      have hn' : NoParent ts := fun n b h => hn n b (by simp [h])
      cases t with
      | cls m b =>
          refine ih _ hn' ?_ e he
          intro d hd
          rcases List.mem_cons.1 hd with rfl | hd
          · exact hn m b (by simp)
          · exact hds d hd
      | frame m b =>
          simp only [allGeoms, List.mem_append, List.mem_map] at he
          rcases he with ⟨x, -, rfl⟩ | he
          · exact hds
          · exact ih ds hn' hds e he

theorem filter_rel {α β : Type} (R : α → β → Prop) (p : α → Bool) (q : β → Bool) (l : List α) (m : List β)
    (h : List.Forall₂ R l m) (hpq : ∀ a b, a ∈ l → R a b → p a = q b) :
    List.Forall₂ R (l.filter p) (m.filter q) := by
  induction h with
  | nil => exact .nil
  | @cons a b l m h1 _ ih =>
      have ih := ih fun a b ha => hpq a b (by simp [ha])
      have e := hpq a b (by simp) h1
      rw [List.filter_cons, List.filter_cons, e]
      cases q b
      · exact ih
      · exact .cons h1 ih

/-- C158, partial: in every file that is read, in which no two frames have the same name and no class gives a
parent, the scene has exactly the frames of the file, with the attributes that their own statements or else their
classes give, and each has exactly its own geometry, in the order of the file.  Missing: that frames, geometry and
classes choose alike among several classes, that an attribute of a frame or of geometry itself overrides another
kind of the same in a class, and classes that give a parent. -/
theorem C158_scene_partial (ts : List Thing) (sc : Scene) (h : load ts = some sc)
    (hd : (names (occs [] ts)).Nodup) (hp : NoParent ts) :
    (∀ o ∈ occs [] ts, (∃ f, sc.frame o.name = some f ∧ FrameSpec o f) ∧
      List.Forall₂ (GeomSpec o.defs) (directGeoms o.body) (sc.geoms o.name)) ∧
    ∀ n, (∀ o ∈ occs [] ts, o.name ≠ n) → sc.frame n = none ∧ sc.geoms n = [] := by
  simp only [load, Option.bind_eq_some_iff] at h
  obtain ⟨a, ha, h⟩ := h
  split at h
  case isFalse => exact absurd h (by simp)
  case isTrue hall =>
  rw [Option.some.injEq] at h
  subst h
  obtain ⟨fs, gs, rfl, hf, hg⟩ := addThings_spec ts [] [] ⟨[], []⟩ a (by intro c q hc; simp [findClass] at hc) ha
  simp only [List.nil_append]
  obtain ⟨f1, f2⟩ := find_frame _ _ hf hd
  have hgeo : ∀ n, List.Forall₂ (fun (e : Defs × String × List Stmt) g => GeomRel e.1 e.2 g)
      ((allGeoms [] ts).filter fun e => e.2.1 = n) (gs.filter fun g => g.1 = n) := by
    intro n
    refine filter_rel _ _ _ _ _ hg ?_
    intro e g he hr
    rw [hr.2 (classVal_none "parent" e.1 (occ_noParent ts [] hp (by simp) e he))]
  refine ⟨fun o ho => ⟨f1 o ho, ?_⟩, fun n hn => ⟨f2 n hn, ?_⟩⟩
  · have := hgeo o.name
    rw [allGeoms_at ts [] hd o ho, List.forall₂_map_left_iff] at this
    rw [List.forall₂_map_right_iff]
    exact this.imp fun _ _ h => h.1
  · have := hgeo n
    rw [allGeoms_other ts [] n hn] at this
    rw [List.forall₂_nil_left_iff.1 this]
    rfl

/-! ### A file that is read as meant -/

/-- A table and a block on it, whose class names another class. -/
def exFile : List Thing :=
  [.cls "green" [.prop "color" (.vec [0, 1, 0]), .prop "alpha" (.num 1)],
   .cls "block" [.prop "isa" (.str "green"), .prop "shape" (.str "box"), .prop "dimension" (.vec [1, 1, 1])],
   .frame "table" [.geom [.prop "shape" (.str "box"), .prop "dimension" (.vec [9, 9, 1])],
     .frame "block_a" [.prop "translation" (.vec [0, 0, 2]),
       .geom [.prop "isa" (.str "block"), .prop "alpha" (.num (1 / 2))]]]]

/-- The hypotheses of `C158_scene_partial` hold for it. -/
example : (∃ sc, load exFile = some sc) ∧ (names (occs [] exFile)).Nodup ∧ NoParent exFile := by
  refine ⟨Option.isSome_iff_exists.1 (by decide +kernel), by decide +kernel, ?_⟩
  intro n b h
  simp only [exFile, List.mem_cons, Thing.cls.injEq, reduceCtorEq, List.not_mem_nil, or_false] at h
  rcases h with ⟨-, rfl⟩ | ⟨-, rfl⟩ <;> decide +kernel

/-- The block is within the table, green by its class's class, and half transparent by its own statement. -/
example : (load exFile).any (fun sc => decide ((sc.frame "block_a").map (·.parent) = some (some "table") ∧
    ((sc.geoms "block_a").map fun g => (g.attr "color", g.attr "alpha", g.types)) =
      [(some (.vec [0, 1, 0]), some (.num (1 / 2)), [.str "block", .str "green"])])) = true := by
  decide +kernel

/-! ### Violations -/

/-- Two classes that both give a translation and a colour, and a frame and its geometry that both name them in
the same order. -/
def orderFile : List Thing :=
  [.cls "a" [.prop "translation" (.vec [1, 0, 0]), .prop "color" (.vec [1, 0, 0])],
   .cls "b" [.prop "translation" (.vec [2, 0, 0]), .prop "color" (.vec [2, 0, 0])],
   .frame "f" [.prop "isa" (.str "a"), .prop "isa" (.str "b"),
     .geom [.prop "shape" (.str "box"), .prop "isa" (.str "a"), .prop "isa" (.str "b")]]]

/-- C158, violated: of several classes frames take the first that gives a value, but geometry the last. -/
theorem C158_class_order_violates : ∃ ts sc, load ts = some sc ∧ (names (occs [] ts)).Nodup ∧ NoParent ts ∧
    ∃ o ∈ occs [] ts, ∃ g ∈ directGeoms o.body, isas o.body = ["a", "b"] ∧ isas g = ["a", "b"] ∧
      (sc.frame o.name).map (·.trans) = some (classVal o.defs "a" "translation") ∧
      (sc.geoms o.name).map (fun g => g.attr "color") = [classVal o.defs "b" "color"] ∧
      classVal o.defs "a" "translation" ≠ classVal o.defs "b" "translation" ∧
      classVal o.defs "a" "color" ≠ classVal o.defs "b" "color" := by
  obtain ⟨sc, hsc⟩ := Option.isSome_iff_exists.1 (show (load orderFile).isSome = true by decide +kernel)
  refine ⟨orderFile, sc, hsc, by decide +kernel, ?_, ?_⟩
  · intro n b h
    simp only [orderFile, List.mem_cons, Thing.cls.injEq, reduceCtorEq, List.not_mem_nil, or_false] at h
    rcases h with ⟨-, rfl⟩ | ⟨-, rfl⟩ <;> decide +kernel
  · refine ⟨_, List.mem_singleton.2 rfl, _, List.mem_singleton.2 rfl, by decide +kernel, by decide +kernel, ?_, ?_,
      by decide +kernel, by decide +kernel⟩
    · have : (load orderFile).map (fun sc => (sc.frame "f").map (·.trans)) =
          some (some (some (.vec [1, 0, 0]))) := by decide +kernel
      rw [hsc] at this
      exact Option.some.inj this
    · have : (load orderFile).map (fun sc => (sc.geoms "f").map (fun g => g.attr "color")) =
          some [some (.vec [2, 0, 0])] := by decide +kernel
      rw [hsc] at this
      exact Option.some.inj this

/-- C158, violated: a rotation that a frame states itself as `rpy` has no effect if a class gives a quaternion. -/
theorem C158_rotation_violates : ∃ ts sc f, load ts = some sc ∧ sc.frame "f" = some f ∧
    (∃ o ∈ occs [] ts, o.name = "f" ∧ own "rpy" o.body = some (.vec [0, 0, 1]) ∧ own "quaternion" o.body = none) ∧
    f.orient = .quat (.vec [1, 0, 0, 0]) := by
  have h : (load [.cls "c" [.prop "quaternion" (.vec [1, 0, 0, 0])],
      .frame "f" [.prop "isa" (.str "c"), .prop "rpy" (.vec [0, 0, 1])]]).bind (fun sc => sc.frame "f") =
      some ⟨"f", none, .quat (.vec [1, 0, 0, 0]), none, .fixed⟩ := by decide +kernel
  rw [Option.bind_eq_some_iff] at h
  obtain ⟨sc, h1, h2⟩ := h
  exact ⟨_, sc, _, h1, h2, ⟨_, List.mem_singleton.2 rfl, rfl, by decide +kernel, by decide +kernel⟩, rfl⟩

/-- C158, violated: a mesh that geometry states itself has no effect if a class gives a shape. -/
theorem C158_mesh_violates : ∃ ts sc b, load ts = some sc ∧
    (∃ o ∈ occs [] ts, o.name = "f" ∧ directGeoms o.body = [b]) ∧ own "mesh" b = some (.str "m.obj") ∧
    own "shape" b = none ∧ (sc.geoms "f").map (·.what) = [.shape "box"] := by
  have h : (load [.cls "c" [.prop "shape" (.str "box")],
      .frame "f" [.geom [.prop "isa" (.str "c"), .prop "mesh" (.str "m.obj")]]]).map
      (fun sc => (sc.geoms "f").map (·.what)) = some [.shape "box"] := by decide +kernel
  rw [Option.map_eq_some_iff] at h
  obtain ⟨sc, h1, h2⟩ := h
  exact ⟨_, sc, _, h1, ⟨_, List.mem_singleton.2 rfl, rfl, rfl⟩, by decide +kernel, by decide +kernel, h2⟩

/-- C158, violated: if a class gives a parent, geometry of that class is not attached to the frame it is
written in. -/
theorem C158_parent_geometry_violates : ∃ ts sc b, load ts = some sc ∧ (names (occs [] ts)).Nodup ∧
    (∃ o ∈ occs [] ts, o.name = "f" ∧ directGeoms o.body = [b]) ∧ sc.geoms "f" = [] ∧
    (sc.geoms "w").length = 1 := by
  have h : (load [.frame "w" [], .cls "c" [.prop "parent" (.str "w"), .prop "shape" (.str "box")],
      .frame "f" [.prop "isa" (.str "c"), .geom [.prop "isa" (.str "c")]]]).map
      (fun sc => ((sc.geoms "f").length, (sc.geoms "w").length)) = some (0, 1) := by decide +kernel
  rw [Option.map_eq_some_iff] at h
  obtain ⟨sc, h1, h2⟩ := h
  simp only [Prod.mk.injEq, List.length_eq_zero_iff] at h2
  exact ⟨_, sc, _, h1, by decide +kernel, ⟨_, List.mem_cons_of_mem _ (List.mem_singleton.2 rfl), rfl, rfl⟩, h2.1, h2.2⟩

/-- C158, violated: a frame within another may not state a parent, but a class gives it one. -/
theorem C158_parent_frame_violates :
    load [.frame "w" [], .frame "f" [.frame "g" [.prop "parent" (.str "w")]]] = none ∧
    ∃ sc f, load [.frame "w" [], .cls "c" [.prop "parent" (.str "w")], .frame "f" [.frame "g" [.prop "isa" (.str "c")]]] =
      some sc ∧ sc.frame "g" = some f ∧ f.parent = some "w" := by
  refine ⟨Option.isNone_iff_eq_none.1 (by decide +kernel), ?_⟩
  have h : (load [.frame "w" [], .cls "c" [.prop "parent" (.str "w")],
      .frame "f" [.frame "g" [.prop "isa" (.str "c")]]]).bind (fun sc => sc.frame "g") =
      some ⟨"g", some "w", .ident, none, .fixed⟩ := by decide +kernel
  rw [Option.bind_eq_some_iff] at h
  obtain ⟨sc, h1, h2⟩ := h
  exact ⟨sc, _, h1, h2, rfl⟩

/-- C158, violated: the radii of a cone may be stated in geometry, but not in a class. -/
theorem C158_cone_violates :
    (load [.frame "f" [.geom [.prop "shape" (.str "cone"), .prop "start_radius" (.num 1)]]]).isSome = true ∧
    load [.cls "c" [.prop "shape" (.str "cone"), .prop "start_radius" (.num 1)],
      .frame "f" [.geom [.prop "isa" (.str "c")]]] = none :=
  ⟨by decide +kernel, Option.isNone_iff_eq_none.1 (by decide +kernel)⟩

/-- C158, violated: of two frames of the same name the second is dropped without an error, though its geometry is
added to the first. -/
theorem C158_duplicate_violates : ∃ ts sc f, load ts = some sc ∧ ((occs [] ts).filter fun o => o.name = "f").length = 2 ∧
    sc.frame "f" = some f ∧ f.trans = some (.vec [1, 0, 0]) ∧ (sc.geoms "f").length = 1 := by
  have h : (load [.frame "f" [.prop "translation" (.vec [1, 0, 0])],
      .frame "f" [.prop "translation" (.vec [2, 0, 0]), .geom [.prop "shape" (.str "box")]]]).map
      (fun sc => (sc.frame "f", (sc.geoms "f").length)) =
      some (some ⟨"f", none, .ident, some (.vec [1, 0, 0]), .fixed⟩, 1) := by decide +kernel
  rw [Option.map_eq_some_iff] at h
  obtain ⟨sc, h1, h2⟩ := h
  simp only [Prod.mk.injEq] at h2
  exact ⟨_, sc, _, h1, by decide +kernel, h2.1, rfl, h2.2⟩

end Verif.CurlyScene
