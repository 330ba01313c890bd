import Verif.Model.GlDraw
import Verif.Prop.GlCam
import Verif.Prop.GlMask

/-!
# C133: a picture shows every visible shape at its pose
-/

namespace Verif.GlDraw

open Verif.Tf Verif.Gl Matrix

/-! ## Specification -/

/-- The options and the mesh of geometry. -/
structure GeomData where
  mesh : Nat
  visual : Bool
  collision : Bool
  scale : ℝ

/-- What the client has made: meshes as last set, geometry, the geometry of the frames of each
graph, and which geometry has been in a drawn graph. -/
structure World where
  meshes : Nat → Mesh
  geoms : Nat → GeomData
  graphs : Nat → List (List Nat)
  drawn : Nat → Prop

/-- Geometry that a graph refers to. -/
def World.uses (w : World) (a g : Nat) : Prop := ∃ gs ∈ w.graphs a, g ∈ gs

/-- The effect of a call. -/
def World.next (w : World) : Op → World
  | .setMesh m mesh => { w with meshes := Function.update w.meshes m mesh }
  | .newGeom g m visual collision scale =>
    ⟨w.meshes, Function.update w.geoms g ⟨m, visual, collision, scale⟩, w.graphs,
      fun k => k ≠ g ∧ w.drawn k⟩
  | .newGraph a n _ => { w with graphs := Function.update w.graphs a (List.replicate n []) }
  | .attach a f g =>
    let x := (w.graphs a).modify f (fun gs => gs ++ [g])
    { w with graphs := Function.update w.graphs a x }
  | .copyFrameGeom a src dst =>
    let x := (w.graphs a).modify dst (fun gs => gs ++ ((w.graphs a)[src]?).getD [])
    { w with graphs := Function.update w.graphs a x }
  | .copy a b _ => { w with graphs := Function.update w.graphs b (w.graphs a) }
  | .draw _ _ a => { w with drawn := fun k => w.drawn k ∨ w.uses a k }

/-- A mesh whose arrays belong together: one normal for each vertex, three indices for each face,
and all of them of vertices. -/
structure Mesh.Wf (m : Mesh) : Prop where
  normals : ∀ ns, m.normals = some ns → ns.length = m.verts.length
  faces : ∀ ix, m.indices = some ix → 3 ∣ ix.length ∧ ∀ i ∈ ix, i < m.verts.length

/-- The rules for the client: meshes are proper, new geometry is new, frames exist, geometry is not
copied from a frame to itself, and a mesh is not changed any more when geometry with it has been
drawn. -/
def Rule (w : World) : Op → Prop
  | .setMesh m mesh => mesh.Wf ∧ ∀ g, w.drawn g → (w.geoms g).mesh ≠ m
  | .newGeom g _ _ _ _ => ∀ a, ¬ w.uses a g
  | .attach a f _ => f < (w.graphs a).length
  | .copyFrameGeom a src dst => src < (w.graphs a).length ∧ dst < (w.graphs a).length ∧ src ≠ dst
  | _ => True

/-- A history that follows the rules. -/
def Rules (w : World) : List Op → Prop
  | [] => True
  | o :: os => Rule w o ∧ Rules (w.next o) os

/-- The indices of the `k`-th face: given, or consecutive vertices. -/
def Mesh.face (m : Mesh) (k : Nat) : Nat × Nat × Nat :=
  match m.indices with
  | some ix => (ix[3 * k]!, ix[3 * k + 1]!, ix[3 * k + 2]!)
  | none => (3 * k, 3 * k + 1, 3 * k + 2)

/-- The number of faces. -/
def Mesh.nFaces (m : Mesh) : Nat :=
  match m.indices with
  | some ix => ix.length / 3
  | none => m.verts.length / 3

/-- Where vertex `i` of a mesh is in the world when the frame is at `E` and the shape has a scale. -/
noncomputable def place (E : Qutr) (scale : ℝ) (m : Mesh) (i : Nat) : V3 :=
  let p := (m.verts[i]?).getD ⟨0, 0, 0⟩
  qutrTf E ⟨scale * p.x, scale * p.y, scale * p.z⟩

/-- The vertex on the screen: the place seen through the camera, and the normal turned with the
frame. -/
noncomputable def onScreen (cam : Globals) (E : Qutr) (scale : ℝ) (m : Mesh) (i : Nat) : Vert :=
  ⟨renderMat cam *ᵥ hom (place E scale m i),
    m.normals.map (fun ns => qrot E.q ((ns[i]?).getD ⟨0, 0, 0⟩))⟩

/-- The triangles of a shape. -/
noncomputable def shape (cam : Globals) (E : Qutr) (scale : ℝ) (m : Mesh) :
    List (Vert × Vert × Vert) :=
  (List.range m.nFaces).map (fun k =>
    let f := m.face k
    (onScreen cam E scale m f.1, onScreen cam E scale m f.2.1, onScreen cam E scale m f.2.2))

/-- Geometry is to be seen. -/
def Shown (vis col : Bool) (d : GeomData) : Prop :=
  (vis = true ∧ d.visual = true) ∨ (col = true ∧ d.collision = true)

instance (vis col : Bool) (d : GeomData) : Decidable (Shown vis col d) := by
  unfold Shown; infer_instance

/-- The picture: frame by frame the triangles of the geometry that is to be seen and whose frame is
not masked. -/
noncomputable def picture (w : World) (a : Nat) (cam : Globals) (masked : Nat → Bool)
    (vis col : Bool) (TF : Nat → Qutr) : List (Vert × Vert × Vert) :=
  (w.graphs a).zipIdx.flatMap (fun x => x.1.flatMap (fun g =>
    if masked x.2 = false ∧ Shown vis col (w.geoms g) then
      shape cam (TF x.2) (w.geoms g).scale (w.meshes (w.geoms g).mesh)
    else []))

/-- The world at the start. -/
def World.init (meshes : Nat → Mesh) (geoms : Nat → Geom) : World :=
  ⟨meshes, fun g => ⟨(geoms g).mesh, (geoms g).visual, (geoms g).collision, (geoms g).scale⟩,
    fun _ => [], fun _ => False⟩

/-- The world after a history. -/
def World.run (w : World) (os : List Op) : World := os.foldl World.next w

/-! ## Lemmas -/

/-- What the state means. -/
structure Rep (s : St) (w : World) : Prop where
  meshes : s.meshes = w.meshes
  geoms : ∀ g, (⟨(s.geoms g).mesh, (s.geoms g).visual, (s.geoms g).collision, (s.geoms g).scale⟩ :
    GeomData) = w.geoms g
  graphs : ∀ a, (s.graphs a).frames = w.graphs a
  bufs : ∀ g b, (s.geoms g).bufs = some b →
    w.drawn g ∧ b = triMesh (w.meshes (w.geoms g).mesh)
  clean : ∀ a, (s.graphs a).dirtyGl = false → ∀ g, w.uses a g → (s.geoms g).bufs ≠ none
  wf : ∀ m, (w.meshes m).Wf

theorem Rep.mesh {s : St} {w : World} (h : Rep s w) (g : Nat) : (s.geoms g).mesh = (w.geoms g).mesh :=
  congrArg GeomData.mesh (h.geoms g)

theorem buffersInit_graphs (s : St) (g : Nat) : (buffersInit s g).graphs = s.graphs := by
  unfold buffersInit; split <;> rfl

theorem buffersInit_meshes (s : St) (g : Nat) : (buffersInit s g).meshes = s.meshes := by
  unfold buffersInit; split <;> rfl

theorem buffersInit_geom (s : St) (g k : Nat) :
    (buffersInit s g).geoms k = s.geoms k ∨
    k = g ∧ (s.geoms g).bufs = none ∧ (buffersInit s g).geoms k =
      { s.geoms g with bufs := some (triMesh (s.meshes (s.geoms g).mesh)) } := by
  unfold buffersInit
  split
  · exact Or.inl rfl
  · by_cases hk : k = g
    · exact Or.inr ⟨hk, by assumption, if_pos hk⟩
    · exact Or.inl (if_neg hk)

theorem buffersInit_some (s : St) (g : Nat) : ((buffersInit s g).geoms g).bufs ≠ none := by
  unfold buffersInit
  split
  · rename_i b hb; rw [hb]; exact Option.some_ne_none b
  · simp

theorem buffersInit_keep (s : St) (g k : Nat) (h : (s.geoms k).bufs ≠ none) :
    ((buffersInit s g).geoms k).bufs ≠ none := by
  rcases buffersInit_geom s g k with e | ⟨e, e2, -⟩
  · rw [e]; exact h
  · subst e; exact absurd e2 h

theorem rep_buffersInit {s : St} {w : World} (h : Rep s w) {g : Nat} (hg : w.drawn g) :
    Rep (buffersInit s g) w := by
  refine ⟨by rw [buffersInit_meshes]; exact h.meshes, ?_, ?_, ?_, ?_, h.wf⟩
  · intro k
    rcases buffersInit_geom s g k with e | ⟨e, -, e3⟩
    · rw [e]; exact h.geoms k
    · subst e; rw [e3]; exact h.geoms k
  · intro a; rw [buffersInit_graphs]; exact h.graphs a
  · intro k b hb
    rcases buffersInit_geom s g k with e | ⟨e, -, e3⟩
    · rw [e] at hb; exact h.bufs k b hb
    · subst e
      rw [e3] at hb
      have hb : triMesh (s.meshes (s.geoms k).mesh) = b := Option.some.inj hb
      rw [h.meshes, h.mesh] at hb
      exact ⟨hg, hb.symm⟩
  · intro a ha k hk
    rw [buffersInit_graphs] at ha
    exact buffersInit_keep s g k (h.clean a ha k hk)

theorem rep_foldl {w : World} (l : List Nat) : ∀ {s : St}, Rep s w → (∀ g ∈ l, w.drawn g) →
    Rep (l.foldl buffersInit s) w ∧ (∀ g ∈ l, ((l.foldl buffersInit s).geoms g).bufs ≠ none) ∧
    (∀ g, (s.geoms g).bufs ≠ none → ((l.foldl buffersInit s).geoms g).bufs ≠ none) ∧
    (l.foldl buffersInit s).graphs = s.graphs := by
  induction l with
  | nil => intro s h _; exact ⟨h, fun g hg => absurd hg (by simp), fun g hg => hg, rfl⟩
  | cons x l ih =>
    intro s h hd
    obtain ⟨h1, h2, h3, h4⟩ := ih (rep_buffersInit h (hd x (by simp)))
      (fun g hg => hd g (List.mem_cons_of_mem _ hg))
    refine ⟨h1, ?_, fun g hg => h3 g (buffersInit_keep s x g hg), ?_⟩
    · intro g hg
      rcases List.mem_cons.1 hg with e | e
      · subst e; exact h3 g (buffersInit_some s g)
      · exact h2 g e
    · rw [List.foldl_cons, h4, buffersInit_graphs]

theorem rep_weaken {s : St} {w : World} (h : Rep s w) (a : Nat) :
    Rep s { w with drawn := fun k => w.drawn k ∨ w.uses a k } :=
  ⟨h.meshes, h.geoms, h.graphs, fun g b hb => ⟨Or.inl (h.bufs g b hb).1, (h.bufs g b hb).2⟩,
    h.clean, h.wf⟩

theorem rep_glInit {s : St} {w : World} (h : Rep s w) (a : Nat) :
    Rep (glInit s a) { w with drawn := fun k => w.drawn k ∨ w.uses a k } ∧
    (∀ g, w.uses a g → ((glInit s a).geoms g).bufs ≠ none) := by
  have hw := rep_weaken h a
  unfold glInit
  cases hd : (s.graphs a).dirtyGl with
  | false => exact ⟨hw, h.clean a hd⟩
  | true =>
    dsimp only
    rw [if_pos rfl]
    have hmem : ∀ g, g ∈ (s.graphs a).frames.flatten ↔ w.uses a g := by
      intro g
      rw [List.mem_flatten, h.graphs a]
      rfl
    obtain ⟨h1, h2, h3, h4⟩ := rep_foldl (s.graphs a).frames.flatten hw
      (fun g hg => Or.inr ((hmem g).1 hg))
    have h2' : ∀ g, w.uses a g → (((s.graphs a).frames.flatten.foldl buffersInit s).geoms g).bufs ≠
        none := fun g hg => h2 g ((hmem g).2 hg)
    refine ⟨⟨h1.meshes, h1.geoms, ?_, h1.bufs, ?_, h1.wf⟩, h2'⟩
    · intro b
      show (if b = a then _ else _ : Graph).frames = _
      by_cases hb : b = a
      · subst hb; rw [if_pos rfl]; exact h1.graphs b
      · rw [if_neg hb]; exact h1.graphs b
    · intro b hb g hg
      by_cases e : b = a
      · subst e; exact h2' g hg
      · refine h1.clean b ?_ g hg
        have : (if b = a then _ else _ : Graph).dirtyGl = false := hb
        rw [if_neg e] at this
        exact this

theorem rep_setGraph {s : St} {w : World} (h : Rep s w) (a : Nat) (x : Graph)
    (hx : x.dirtyGl = false → ∀ gs ∈ x.frames, ∀ g ∈ gs, (s.geoms g).bufs ≠ none) :
    Rep (s.setGraph a x) { w with graphs := Function.update w.graphs a x.frames } := by
  refine ⟨h.meshes, h.geoms, ?_, h.bufs, ?_, h.wf⟩
  · intro b
    show (if b = a then x else s.graphs b).frames = Function.update w.graphs a x.frames b
    by_cases e : b = a
    · subst e; rw [if_pos rfl, Function.update_self]
    · rw [if_neg e, Function.update_of_ne e]; exact h.graphs b
  · intro b hb g hg
    have hb : (if b = a then x else s.graphs b).dirtyGl = false := hb
    obtain ⟨gs, h1, h2⟩ : ∃ gs ∈ Function.update w.graphs a x.frames b, g ∈ gs := hg
    by_cases e : b = a
    · subst e
      rw [if_pos rfl] at hb
      rw [Function.update_self] at h1
      exact hx hb gs h1 g h2
    · rw [if_neg e] at hb
      rw [Function.update_of_ne e] at h1
      exact h.clean b hb g ⟨gs, h1, h2⟩

theorem rep_step {s : St} {w : World} (h : Rep s w) (o : Op) (ho : Rule w o) :
    Rep (step s o) (w.next o) := by
  cases o with
  | setMesh m mesh =>
    obtain ⟨h1, h2⟩ := ho
    refine ⟨?_, h.geoms, h.graphs, ?_, h.clean, ?_⟩
    · funext k
      show (if k = m then mesh else s.meshes k) = Function.update w.meshes m mesh k
      rw [Function.update_apply, h.meshes]
    · intro g b hb
      obtain ⟨e1, e2⟩ := h.bufs g b hb
      refine ⟨e1, ?_⟩
      show b = triMesh (Function.update w.meshes m mesh (w.geoms g).mesh)
      rw [Function.update_of_ne (h2 g e1)]; exact e2
    · intro k
      show (Function.update w.meshes m mesh k).Wf
      by_cases e : k = m
      · subst e; rw [Function.update_self]; exact h1
      · rw [Function.update_of_ne e]; exact h.wf k
  | newGeom g m visual collision scale =>
    have hk : ∀ k, k ≠ g → (step s (.newGeom g m visual collision scale)).geoms k = s.geoms k :=
      fun k hk => if_neg hk
    have hg : (step s (.newGeom g m visual collision scale)).geoms g =
      ⟨m, visual, collision, scale, none⟩ := if_pos rfl
    refine ⟨h.meshes, ?_, h.graphs, ?_, ?_, h.wf⟩
    · intro k
      show _ = Function.update w.geoms g ⟨m, visual, collision, scale⟩ k
      by_cases e : k = g
      · subst e; rw [hg, Function.update_self]
      · rw [hk k e, Function.update_of_ne e]; exact h.geoms k
    · intro k b hb
      by_cases e : k = g
      · subst e; rw [hg] at hb; cases hb
      · rw [hk k e] at hb
        obtain ⟨e1, e2⟩ := h.bufs k b hb
        refine ⟨⟨e, e1⟩, ?_⟩
        show b = triMesh (w.meshes (Function.update w.geoms g _ k).mesh)
        rw [Function.update_of_ne e]; exact e2
    · intro a ha k hu
      have e : k ≠ g := by rintro rfl; exact ho a hu
      rw [hk k e]
      exact h.clean a ha k hu
  | newGraph a n junk =>
    refine rep_setGraph h a ⟨List.replicate n [], junk⟩ ?_
    intro _ gs hgs g hg
    rw [List.eq_of_mem_replicate hgs] at hg
    cases hg
  | attach a f g =>
    have := rep_setGraph h a ⟨(s.graphs a).frames.modify f (fun gs => gs ++ [g]), true⟩
      (fun e => nomatch e)
    rw [h.graphs a] at this
    show Rep (s.setGraph a ⟨(s.graphs a).frames.modify f (fun gs => gs ++ [g]), true⟩) _
    rw [h.graphs a]; exact this
  | copyFrameGeom a src dst =>
    have := rep_setGraph h a ⟨(s.graphs a).frames.modify dst
      (fun gs => gs ++ ((s.graphs a).frames[src]?).getD []), true⟩ (fun e => nomatch e)
    show Rep (s.setGraph a ⟨(s.graphs a).frames.modify dst
      (fun gs => gs ++ ((s.graphs a).frames[src]?).getD []), true⟩) _
    rw [h.graphs a] at this ⊢; exact this
  | copy a b junk =>
    have := rep_setGraph h b
      ⟨(s.graphs a).frames, if (s.graphs a).frames.flatten.isEmpty then junk else true⟩ (by
        intro e gs hgs g hg
        dsimp only at e hgs
        by_cases he : (s.graphs a).frames.flatten.isEmpty
        · rw [List.isEmpty_iff] at he
          have : g ∈ (s.graphs a).frames.flatten := List.mem_flatten.2 ⟨gs, hgs, hg⟩
          rw [he] at this; cases this
        · rw [if_neg he] at e; cases e)
    show Rep (s.setGraph b
      ⟨(s.graphs a).frames, if (s.graphs a).frames.flatten.isEmpty then junk else true⟩) _
    rw [h.graphs a] at this ⊢; exact this
  | draw v TF a => exact (rep_glInit h a).1

theorem rep_run (os : List Op) : ∀ {s : St} {w : World}, Rep s w → Rules w os →
    Rep (run s os) (w.run os) := by
  induction os with
  | nil => intro s w h _; exact h
  | cons o os ih => intro s w h hr; exact ih (rep_step h o hr.1) hr.2

theorem rep_init (meshes : Nat → Mesh) (geoms : Nat → Geom) (h : ∀ m, (meshes m).Wf) :
    Rep (init meshes geoms) (World.init meshes geoms) :=
  ⟨rfl, (fun _ => rfl), (fun _ => rfl), (fun _ _ e => nomatch e),
    (fun _ _ _ hu => (by obtain ⟨_, h1, -⟩ := hu; cases h1)), h⟩

theorem triangles_eq {α : Type} [Inhabited α] (n : Nat) : ∀ l : List α, l.length / 3 = n →
    triangles l = (List.range n).map (fun k => (l[3 * k]!, l[3 * k + 1]!, l[3 * k + 2]!)) := by
  induction n with
  | zero =>
    intro l hl
    match l, hl with
    | [], _ => rfl
    | [_], _ => rfl
    | [_, _], _ => rfl
    | _ :: _ :: _ :: l, hl => exact absurd hl (by simp only [List.length_cons]; omega)
  | succ n ih =>
    intro l hl
    match l, hl with
    | [], hl => exact absurd hl (by simp)
    | [_], hl => exact absurd hl (by simp)
    | [_, _], hl => exact absurd hl (by simp)
    | x :: y :: z :: l, hl =>
      rw [triangles, ih l (by simp only [List.length_cons] at hl; omega), List.range_succ_eq_map,
        List.map_cons, List.map_map]
      refine congrArg₂ List.cons rfl (List.map_congr_left ?_)
      intro k _
      have e : ∀ j, (x :: y :: z :: l)[3 * (k + 1) + j]! = l[3 * k + j]! := by
        intro j
        have : 3 * (k + 1) + j = (3 * k + j) + 3 := by omega
        rw [this]
        rfl
      have e0 := e 0
      simp only [Nat.add_zero] at e0
      simp only [Function.comp_apply, Nat.succ_eq_add_one, e0, e 1, e 2]

theorem mapM_some {α β : Type} (f : α → Option β) (g : α → β) : ∀ l : List α,
    (∀ x ∈ l, f x = some (g x)) → l.mapM f = some (l.map g) := by
  intro l
  induction l with
  | nil => intro _; rfl
  | cons x l ih =>
    intro h
    rw [List.mapM_cons, h x (by simp), ih (fun y hy => h y (List.mem_cons_of_mem _ hy))]
    rfl

theorem shader_eq (cam : Globals) (E : Qutr) (scale : ℝ) (p : V3) (n : Option V3) :
    shader (renderMat cam) (scaleMat (tfmat2glmat (qutr2tfmat E)) scale)
      (rotateMat (tfmat2glmat (qutr2tfmat E))) p n =
    ⟨renderMat cam *ᵥ hom (qutrTf E ⟨scale * p.x, scale * p.y, scale * p.z⟩), n.map (qrot E.q)⟩ := by
  unfold shader
  have h1 : Matrix.mulVec (scaleMat (tfmat2glmat (qutr2tfmat E)) scale) ![p.x, p.y, p.z, 1] =
      hom (qutrTf E ⟨scale * p.x, scale * p.y, scale * p.z⟩) := by
    rw [← C26_point.1, ← tfmat2glmat_hom]
    funext i
    fin_cases i <;>
      simp [tfmat2glmat, hom, scaleMat, Matrix.mulVec, dotProduct, Fin.sum_univ_four] <;> ring
  have h2 : rot9 (rotateMat (tfmat2glmat (qutr2tfmat E))) = qrot E.q := by
    funext q
    rw [← rot9_quat2rotmat]
    rfl
  rw [h1, h2]

theorem fetch_eq {m : Mesh} (h : m.Wf) {i : Nat} (hi : i < m.verts.length) (ix : Option (List Nat))
    (c : Nat) : fetch ⟨m.verts, m.normals, ix, c⟩ i =
      some ((m.verts[i]?).getD ⟨0, 0, 0⟩, m.normals.map (fun ns => (ns[i]?).getD ⟨0, 0, 0⟩)) := by
  unfold fetch
  simp only [List.getElem?_eq_getElem hi]
  cases hn : m.normals with
  | none => rfl
  | some ns =>
    have hl := h.normals ns hn
    simp only [List.getElem?_eq_getElem (show i < ns.length by omega), Option.getD_some,
      Option.map_some]

instance : Inhabited Vert := ⟨⟨0, none⟩⟩

theorem drawTf_eq (cam : Globals) (E : Qutr) (scale : ℝ) (m : Mesh) (h : m.Wf) :
    drawTf (renderMat cam) E scale (triMesh m) = some (shape cam E scale m) := by
  have key : ∀ (ix : List Nat) (ixo : Option (List Nat)) (c : Nat), (∀ i ∈ ix, i < m.verts.length) →
      (match ix.mapM (fetch ⟨m.verts, m.normals, ixo, c⟩) with
        | none => none
        | some vs => some (triangles (vs.map (fun pn => shader (renderMat cam)
            (scaleMat (tfmat2glmat (qutr2tfmat E)) scale)
            (rotateMat (tfmat2glmat (qutr2tfmat E))) pn.1 pn.2)))) =
      some ((List.range (ix.length / 3)).map (fun k => (onScreen cam E scale m (ix[3 * k]!),
        onScreen cam E scale m (ix[3 * k + 1]!), onScreen cam E scale m (ix[3 * k + 2]!)))) := by
    intro ix ixo c hix
    rw [mapM_some _ _ ix (fun i hi => fetch_eq h (hix i hi) ixo c)]
    dsimp only
    rw [List.map_map, triangles_eq (ix.length / 3) _ (by rw [List.length_map])]
    refine congrArg some (List.map_congr_left ?_)
    intro k hk
    have hk := List.mem_range.1 hk
    have e : ∀ j, j < ix.length → (ix.map ((fun pn : V3 × Option V3 => shader (renderMat cam)
            (scaleMat (tfmat2glmat (qutr2tfmat E)) scale)
            (rotateMat (tfmat2glmat (qutr2tfmat E))) pn.1 pn.2) ∘ fun (i : Nat) =>
            ((m.verts[i]?).getD ⟨0, 0, 0⟩,
              m.normals.map (fun (ns : List V3) => (ns[i]?).getD ⟨0, 0, 0⟩))))[j]! =
        onScreen cam E scale m (ix[j]!) := by
      intro j hj
      rw [getElem!_pos _ j (by rw [List.length_map]; exact hj), getElem!_pos ix j hj,
        List.getElem_map, Function.comp_apply, shader_eq]
      unfold onScreen place
      rw [Option.map_map]
      rfl
    rw [e _ (by omega), e _ (by omega), e _ (by omega)]
  unfold drawTf triMesh bindMesh shape Mesh.nFaces Mesh.face elements
  cases hi : m.indices with
  | some ix =>
    obtain ⟨h1, h2⟩ := h.faces ix hi
    have h3 : 3 * (ix.length / 3) = ix.length := Nat.mul_div_cancel' h1
    have h4 : List.take (3 * (ix.length / 3)) ix = ix := by rw [h3, List.take_length]
    dsimp only
    rw [h4, if_pos (le_of_eq h3)]
    dsimp only
    rw [h4]
    exact key ix _ _ h2
  | none =>
    dsimp only
    refine (key (List.range m.verts.length) none _ (fun i hi => List.mem_range.1 hi)).trans ?_
    rw [List.length_range]
    refine congrArg some (List.map_congr_left ?_)
    intro k hk
    have hk := List.mem_range.1 hk
    have e : ∀ j, j < m.verts.length → (List.range m.verts.length)[j]! = j := by
      intro j hj
      rw [getElem!_pos _ j (by rw [List.length_range]; exact hj), List.getElem_range]
    rw [e _ (by omega), e _ (by omega), e _ (by omega)]

theorem pairs_eq (fs : List (List Nat)) : ∀ k, pairs k fs =
    (fs.zipIdx k).flatMap (fun x => x.1.map (fun g => (x.2, g))) := by
  induction fs with
  | nil => intro k; rfl
  | cons gs fs ih =>
    intro k
    rw [pairs, ih, List.zipIdx_cons, List.flatMap_cons]

theorem mem_pairs {fs : List (List Nat)} : ∀ {k : Nat} {p : Nat × Nat}, p ∈ pairs k fs →
    ∃ gs ∈ fs, p.2 ∈ gs := by
  induction fs with
  | nil => intro k p h; cases h
  | cons gs fs ih =>
    intro k p h
    rw [pairs, List.mem_append] at h
    rcases h with h | h
    · obtain ⟨g, hg, rfl⟩ := List.mem_map.1 h
      exact ⟨gs, by simp, hg⟩
    · obtain ⟨gs', h1, h2⟩ := ih h
      exact ⟨gs', List.mem_cons_of_mem _ h1, h2⟩

/-! ## C133 -/

/-- **C133** (partly): whatever calls came before, a picture consists of the triangles of the
geometry that is to be seen, of the frames that are not masked, each vertex at its place; nothing
undefined is done.  Missing: meshes that are changed after a picture showed them, and masks that
grow a second time (C83). -/
theorem C133_picture_partial (meshes : Nat → Mesh) (geoms : Nat → Geom) (os : List Op)
    (hm : ∀ m, (meshes m).Wf) (hr : Rules (World.init meshes geoms) os)
    (cs : List CamOp) (ms : List GlMask.Op) (hroom : GlMask.Roomy 0 ms) (vis col : Bool)
    (TF : Nat → Qutr) (a : Nat) :
    ∃ mask, GlMask.run GlMask.create ms = some mask ∧
    (render (run (init meshes geoms) os) ⟨camRun cs, mask, vis, col⟩ TF a).2 =
      some (picture ((World.init meshes geoms).run os) a (camRun cs) (GlMask.spec ms) vis col TF) := by
  obtain ⟨mask, h1, h2⟩ := GlMask.C83_mask_partial ms hroom
  refine ⟨mask, h1, ?_⟩
  have h := rep_run os (rep_init meshes geoms hm) hr
  obtain ⟨w, hw⟩ : ∃ w, w = (World.init meshes geoms).run os := ⟨_, rfl⟩
  obtain ⟨s, hs⟩ : ∃ s, s = run (init meshes geoms) os := ⟨_, rfl⟩
  rw [← hw, ← hs] at h
  rw [← hw, ← hs]
  clear hw hs
  obtain ⟨g1, g2⟩ := rep_glInit h a
  unfold render
  dsimp only
  have hfr : ((glInit s a).graphs a).frames = w.graphs a := g1.graphs a
  rw [mapM_some _ (fun p => if GlMask.spec ms p.1 = false ∧ Shown vis col (w.geoms p.2) then
      shape (camRun cs) (TF p.1) (w.geoms p.2).scale (w.meshes (w.geoms p.2).mesh) else [])]
  · rw [hfr, pairs_eq]
    unfold picture
    rw [Option.map_some, ← List.flatMap_def, List.flatMap_assoc]
    simp only [List.flatMap_map]
  · rintro ⟨f, g⟩ hp
    obtain ⟨gs, k1, k2⟩ := mem_pairs hp
    rw [hfr] at k1
    have hg := g1.geoms g
    have hscale : ((glInit s a).geoms g).scale = (w.geoms g).scale := congrArg GeomData.scale hg
    have hvis : ((glInit s a).geoms g).visual = (w.geoms g).visual := congrArg GeomData.visual hg
    have hcol : ((glInit s a).geoms g).collision = (w.geoms g).collision :=
      congrArg GeomData.collision hg
    unfold renderHelper
    cases hb : ((glInit s a).geoms g).bufs with
    | none => exact absurd hb (g2 g ⟨gs, k1, k2⟩)
    | some b =>
      obtain ⟨-, e2⟩ := g1.bufs g b hb
      have e2 : b = triMesh (w.meshes (w.geoms g).mesh) := e2
      obtain ⟨r, m1, m2⟩ := h2 f
      simp only [m1, hvis, hcol, hscale]
      have hiff : (r = 0 ∧ (vis = true ∧ (w.geoms g).visual = true ∨
          col = true ∧ (w.geoms g).collision = true)) ↔
          (GlMask.spec ms f = false ∧ Shown vis col (w.geoms g)) := by
        refine and_congr ?_ Iff.rfl
        constructor
        · intro e; cases hsp : GlMask.spec ms f with
          | false => rfl
          | true => exact absurd e (m2.2 hsp)
        · intro e; by_contra hne; rw [m2.1 hne] at e; cases e
      by_cases hc : GlMask.spec ms f = false ∧ Shown vis col (w.geoms g)
      · rw [if_pos hc, if_pos (hiff.2 hc), e2]
        exact drawTf_eq _ _ _ _ (h.wf _)
      · rw [if_neg hc, if_neg (fun e => hc (hiff.1 e))]

/-- **C133**: a vertex of the picture is on the screen exactly if its place in the world is in the
frustum of the camera. -/
theorem C133_vertex (cs : List CamOp) (hc : (view cs).Ok) (E : Qutr) (scale : ℝ) (m : Mesh) (i : Nat)
    (c : V3) (h : qutrTf (view cs).pose c = place E scale m i) :
    InClip (onScreen (camRun cs) E scale m i).position ↔ InFrustum (view cs) c :=
  C84_frustum cs hc c _ h

/-- A mesh with one triangle. -/
def tri : Mesh := ⟨[⟨0, 0, 0⟩, ⟨1, 0, 0⟩, ⟨0, 1, 0⟩], none, some [0, 1, 2]⟩

/-- No mesh. -/
def noMesh : Mesh := ⟨[], none, none⟩

/-- Geometry that is drawn. -/
noncomputable def noGeom : Geom := ⟨0, true, true, 1, none⟩

theorem tri_wf : tri.Wf := by
  refine ⟨(fun ns h => nomatch h), fun ix h => ?_⟩
  obtain rfl : [0, 1, 2] = ix := Option.some.inj h
  refine ⟨⟨1, rfl⟩, ?_⟩
  intro i hi
  have : tri.verts.length = 3 := rfl
  simp at hi
  omega

theorem noMesh_wf : noMesh.Wf := ⟨(fun _ h => nomatch h), (fun _ h => nomatch h)⟩

/-- A history that follows the rules: two graphs share a triangle, both are drawn, and another shape
is added to the first one between the pictures. -/
noncomputable def example1 (v : View) (TF : Nat → Qutr) : List Op :=
  [.setMesh 0 tri, .newGeom 0 0 true false 2, .newGraph 0 2 false, .attach 0 1 0, .draw v TF 0,
    .copy 0 1 false, .setMesh 1 tri, .newGeom 1 1 false true 1, .attach 0 0 1, .draw v TF 0,
    .draw v TF 1]

example (v : View) (TF : Nat → Qutr) :
    Rules (World.init (fun _ => noMesh) (fun _ => noGeom)) (example1 v TF) := by
  simp [Rules, Rule, example1, World.next, World.init, World.uses, tri_wf]
  intro a x hx
  by_cases h1 : a = 1
  · subst h1
    rw [Function.update_self] at hx
    simp at hx
    rcases hx with rfl | rfl <;> simp
  · rw [Function.update_of_ne h1] at hx
    by_cases h0 : a = 0
    · subst h0
      rw [Function.update_self] at hx
      simp at hx
      rcases hx with rfl | rfl <;> simp
    · rw [Function.update_of_ne h0] at hx
      cases hx

example (v : View) (TF : Nat → Qutr) :
    ((World.init (fun _ => noMesh) (fun _ => noGeom)).run (example1 v TF)).graphs 0 = [[1], [0]] := by
  simp [World.run, example1, World.next, World.init]

/-- **C133 fails** for a mesh that is changed after it has been drawn: the old shape stays in the
picture.  Here all vertices are taken away, but there still is a triangle. -/
theorem C133_violates_mesh (v : View) (TF : Nat → Qutr) (cam : Globals) :
    let os : List Op := [.setMesh 0 tri, .newGeom 0 0 true true 1, .newGraph 0 1 false,
      .attach 0 0 0, .draw v TF 0, .setMesh 0 noMesh]
    let s := run (init (fun _ => noMesh) (fun _ => noGeom)) os
    let w := (World.init (fun _ => noMesh) (fun _ => noGeom)).run os
    picture w 0 cam (fun _ => false) true true TF = [] ∧
    ∃ t, (render s ⟨cam, GlMask.create, true, true⟩ TF 0).2 = some [t] := by
  refine ⟨?_, ?_⟩
  · simp [picture, World.run, World.next, World.init, shape, Mesh.nFaces, noMesh]
  · simp [run, step, render, glInit, buffersInit, init, St.setGraph, pairs, renderHelper, triMesh, tri,
      bindMesh, noGeom, GlMask.create, GlMask.isMasked, Bits.getn, drawTf, elements, fetch, triangles,
      GlMask.size_eq]

end Verif.GlDraw
