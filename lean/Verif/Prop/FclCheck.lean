import Verif.Model.SgFcl
import Verif.Prop.SgCl
import Verif.Prop.GlCover
import Verif.Prop.Rigid

/-!
# C88: collision checks report exactly the overlapping frames that are not allowed to
-/

namespace Verif.Fcl

open Verif.Tf Verif.Sg Verif.GlMesh

/-! ## Specification -/

/-- The set of a collision set object: symmetric by its type, of pairs below `n`. -/
def Holds (s : ClSet) (n : Nat) (S : Sym2 Nat → Prop) : Prop :=
  s.n = n ∧ s.v.length = n * n ∧
    ∀ i j : Nat, i < n → j < n → ∃ b, clGet s i j = some b ∧ (b = true ↔ S s(i, j))

/-- The points of a shape, as documented, before scaling and placing. -/
def Shape.solid : Shape → V3 → Prop
  | .mesh v t => Drawn ⟨v, [], t⟩
  | .box d => Box d
  | .sphere r => Ball r
  | .cylinder h r => Frustum h r r
  | .cone h r0 r1 => Frustum h r0 r1
  | .grid d0 d1 e0 e1 w => Lines d0 d1 e0 e1 w
  | .torus a R r => fun q => ∃ phi, 0 ≤ phi ∧ phi ≤ a ∧
      (q.x - R * Real.cos phi) ^ 2 + (q.y - R * Real.sin phi) ^ 2 + q.z ^ 2 ≤ r ^ 2

/-- The points that a geometry object occupies in the world, given the pose of its frame. -/
def Geom.occupies (g : Geom) (E : Qutr) (p : V3) : Prop :=
  ∃ q, g.shape.solid q ∧ p = qutrTf E (vscal g.scale q)

/-- Two frames have collision geometry that overlaps. -/
def Overlap (scene : List (List Geom)) (tf : Nat → Qutr) (a b : Nat) : Prop :=
  ∃ ga gb gas gbs, scene[a]? = some gas ∧ scene[b]? = some gbs ∧ ga ∈ gas ∧ gb ∈ gbs ∧
    ga.collision = true ∧ gb.collision = true ∧
    ∃ p, ga.occupies (tf a) p ∧ gb.occupies (tf b) p

/-! ## The library -/

/-- The points of FCL shapes (documentation of FCL: centred at the origin, cylinders along z). -/
def FclGeom.solid : FclGeom → V3 → Prop
  | .bvh v t => Drawn ⟨v, [], t⟩
  | .box x y z => Box ⟨x, y, z⟩
  | .sphere r => Ball r
  | .cylinder r l => fun q => q.x ^ 2 + q.y ^ 2 ≤ r ^ 2 ∧ |q.z| ≤ l / 2

/-- The points of an FCL shape at a transform. -/
def placed (o : FclGeom × Tfm) (p : V3) : Prop := ∃ q, o.1.solid q ∧ p = tfmTf o.2 q

/-- Contract of the narrow phase: `fcl::collide` answers whether there is a common point. -/
def NarrowPhase (collide : FclGeom × Tfm → FclGeom × Tfm → Bool) : Prop :=
  ∀ a b, collide a b = true ↔ ∃ p, placed a p ∧ placed b p

/-- Contract of the broad phase: the callback is called for pairs of objects of the manager, among
them every pair that collides, in whatever order. -/
def BroadPhase (n : Nat) (hit : Nat → Nat → Bool) (visits : List (Nat × Nat)) : Prop :=
  (∀ p ∈ visits, p.1 < n ∧ p.2 < n) ∧
  ∀ i j, i < n → j < n → i ≠ j → hit i j = true → (i, j) ∈ visits ∨ (j, i) ∈ visits

/-! ## The loop -/

open Classical in
theorem holds_rep {s : ClSet} {n : Nat} {S : Sym2 Nat → Prop} :
    Holds s n S ↔ Rep s n (fun p => decide (S p)) := by
  have key : ∀ i j : Nat, s.n = n → s.v.length = n * n → i < n → j < n →
      clGet s i j = s.v[cpos n i j]? := by
    intro i j h1 h2 hi hj
    unfold clGet clIndex
    rw [if_neg (by omega)]
    dsimp only
    simp only [Int.toNat_natCast, h1, h2]
    change (Option.bind (if cpos n i j < n * n then some (cpos n i j) else none) _) = _
    rw [if_pos (cpos_lt hi hj)]; rfl
  constructor
  · rintro ⟨h1, h2, h3⟩
    refine ⟨h1, h2, fun i j hi hj => ?_⟩
    obtain ⟨b, e, hb⟩ := h3 i j hi hj
    rw [← key i j h1 h2 hi hj, e]
    congr 1
    rw [Bool.eq_iff_iff, hb, decide_eq_true_iff]
  · rintro ⟨h1, h2, h3⟩
    refine ⟨h1, h2, fun i j hi hj => ⟨_, ?_, decide_eq_true_iff⟩⟩
    rw [key i j h1 h2 hi hj, h3 i j hi hj]

/-- A visit of a pair that counts. -/
def Bad (A : Sym2 Nat → Prop) (frame : Nat → Nat) (hit : Nat → Nat → Bool) (p : Nat × Nat) : Prop :=
  frame p.1 ≠ frame p.2 ∧ ¬ A s(frame p.1, frame p.2) ∧ hit p.1 p.2 = true

theorem holds_get {s : ClSet} {n : Nat} {S : Sym2 Nat → Prop} (h : Holds s n S) {i j : Nat}
    (hi : i < n) (hj : j < n) :
    (S s(i, j) ∧ clGet s i j = some true) ∨ (¬ S s(i, j) ∧ clGet s i j = some false) := by
  obtain ⟨b, e, hb⟩ := h.2.2 i j hi hj
  cases b
  · right; exact ⟨fun h => by simpa using hb.2 h, e⟩
  · left; exact ⟨hb.1 rfl, e⟩

open Classical in
theorem holds_set {s : ClSet} {n : Nat} {S : Sym2 Nat → Prop} (h : Holds s n S) {i j : Nat}
    (hi : i < n) (hj : j < n) :
    ∃ s', clSet s i j true = some s' ∧ Holds s' n (fun q => S q ∨ q = s(i, j)) := by
  obtain ⟨s', e, r⟩ := clSet_eq (holds_rep.1 h) true hi hj
  refine ⟨s', e, holds_rep.2 (r.congr fun p => ?_)⟩
  by_cases hp : p = s(i, j)
  · subst hp; simp
  · rw [Function.update_of_ne hp]; simp [hp]

theorem holds_congr {s : ClSet} {n : Nat} {S T : Sym2 Nat → Prop} (h : Holds s n S)
    (he : ∀ i j, i < n → j < n → (S s(i, j) ↔ T s(i, j))) : Holds s n T := by
  refine ⟨h.1, h.2.1, fun i j hi hj => ?_⟩
  obtain ⟨b, e, hb⟩ := h.2.2 i j hi hj
  exact ⟨b, e, hb.trans (he i j hi hj)⟩

theorem visit_none {allowed : ClSet} {n : Nat} {A : Sym2 Nat → Prop} (ha : Holds allowed n A)
    {frame : Nat → Nat} (hit : Nat → Nat → Bool) : ∀ (vs : List (Nat × Nat)) (r : Bool),
    (∀ p ∈ vs, frame p.1 < n ∧ frame p.2 < n) →
    ∃ d, visit (checkCallback allowed frame hit) vs ⟨r, none⟩ = some d ∧ d.set = none ∧
      (d.result = true ↔ r = true ∨ ∃ p ∈ vs, Bad A frame hit p) := by
  intro vs
  induction vs with
  | nil => intro r _; exact ⟨_, rfl, rfl, by simp⟩
  | cons p vs ih =>
    intro r hv
    obtain ⟨hp1, hp2⟩ := hv p (by simp)
    have hv' : ∀ p ∈ vs, frame p.1 < n ∧ frame p.2 < n := fun p hp => hv p (by simp [hp])
    have skip : checkCallback allowed frame hit ⟨r, none⟩ p.1 p.2 = some (⟨r, none⟩, false) →
        ¬ Bad A frame hit p → ∃ d, visit (checkCallback allowed frame hit) (p :: vs) ⟨r, none⟩ = some d ∧
          d.set = none ∧ (d.result = true ↔ r = true ∨ ∃ q ∈ p :: vs, Bad A frame hit q) := by
      intro e hb
      obtain ⟨d, e1, e2, e3⟩ := ih r hv'
      refine ⟨d, by simp only [visit, e]; exact e1, e2, ?_⟩
      rw [e3]
      simp [hb]
    by_cases hf : frame p.1 = frame p.2
    · exact skip (by unfold checkCallback; dsimp only; rw [if_pos hf]) (fun h => h.1 hf)
    rcases holds_get ha hp1 hp2 with ⟨h1, h2⟩ | ⟨h1, h2⟩
    · exact skip (by unfold checkCallback; dsimp only; rw [if_neg hf, h2]) (fun h => h.2.1 h1)
    by_cases hh : hit p.1 p.2 = true
    · refine ⟨⟨true, none⟩, ?_, rfl, ?_⟩
      · simp only [visit]
        unfold checkCallback; dsimp only; rw [if_neg hf, h2]; dsimp only; rw [if_pos hh]
      · simp only [true_iff]
        exact Or.inr ⟨p, by simp, hf, h1, hh⟩
    · exact skip (by unfold checkCallback; dsimp only; rw [if_neg hf, h2]; dsimp only; rw [if_neg hh])
        (fun h => hh h.2.2)

theorem visit_some {allowed : ClSet} {n : Nat} {A : Sym2 Nat → Prop} (ha : Holds allowed n A)
    {frame : Nat → Nat} (hit : Nat → Nat → Bool) : ∀ (vs : List (Nat × Nat)) (r : Bool) (s : ClSet)
    (S : Sym2 Nat → Prop), Holds s n S → (∀ p ∈ vs, frame p.1 < n ∧ frame p.2 < n) →
    ∃ d s', visit (checkCallback allowed frame hit) vs ⟨r, some s⟩ = some d ∧ d.set = some s' ∧
      Holds s' n (fun q => S q ∨ ∃ p ∈ vs, Bad A frame hit p ∧ q = s(frame p.1, frame p.2)) ∧
      (d.result = true ↔ r = true ∨ ∃ p ∈ vs, Bad A frame hit p) := by
  intro vs
  induction vs with
  | nil => intro r s S hs _; exact ⟨_, s, rfl, rfl, by simpa using hs, by simp⟩
  | cons p vs ih =>
    intro r s S hs hv
    obtain ⟨hp1, hp2⟩ := hv p (by simp)
    have hv' : ∀ p ∈ vs, frame p.1 < n ∧ frame p.2 < n := fun p hp => hv p (by simp [hp])
    have skip : checkCallback allowed frame hit ⟨r, some s⟩ p.1 p.2 = some (⟨r, some s⟩, false) →
        ¬ Bad A frame hit p → ∃ d s', visit (checkCallback allowed frame hit) (p :: vs) ⟨r, some s⟩ = some d ∧
          d.set = some s' ∧ Holds s' n (fun q => S q ∨ ∃ p' ∈ p :: vs, Bad A frame hit p' ∧
            q = s(frame p'.1, frame p'.2)) ∧
          (d.result = true ↔ r = true ∨ ∃ q ∈ p :: vs, Bad A frame hit q) := by
      intro e hb
      obtain ⟨d, s', e1, e2, e3, e4⟩ := ih r s S hs hv'
      refine ⟨d, s', by simp only [visit, e]; exact e1, e2, ?_, ?_⟩
      · refine holds_congr e3 fun i j _ _ => ?_
        simp [hb]
      · rw [e4]
        simp [hb]
    by_cases hf : frame p.1 = frame p.2
    · exact skip (by unfold checkCallback; dsimp only; rw [if_pos hf]) (fun h => h.1 hf)
    rcases holds_get ha hp1 hp2 with ⟨h1, h2⟩ | ⟨h1, h2⟩
    · exact skip (by unfold checkCallback; dsimp only; rw [if_neg hf, h2]) (fun h => h.2.1 h1)
    by_cases hh : hit p.1 p.2 = true
    · obtain ⟨s1, k1, k2⟩ := holds_set hs hp1 hp2
      obtain ⟨d, s', e1, e2, e3, e4⟩ := ih true s1 _ k2 hv'
      refine ⟨d, s', ?_, e2, ?_, ?_⟩
      · simp only [visit]
        have : checkCallback allowed frame hit ⟨r, some s⟩ p.1 p.2 = some (⟨true, some s1⟩, false) := by
          unfold checkCallback; dsimp only; rw [if_neg hf, h2]; dsimp only; rw [if_pos hh, k1]; rfl
        rw [this]
        exact e1
      · refine holds_congr e3 fun i j _ _ => ?_
        constructor
        · rintro ((h | h) | ⟨q, hq, h⟩)
          · exact Or.inl h
          · exact Or.inr ⟨p, by simp, ⟨hf, h1, hh⟩, h⟩
          · exact Or.inr ⟨q, by simp [hq], h⟩
        · rintro (h | ⟨q, hq, h, h'⟩)
          · exact Or.inl (Or.inl h)
          · rcases List.mem_cons.1 hq with rfl | hq
            · exact Or.inl (Or.inr h')
            · exact Or.inr ⟨q, hq, h, h'⟩
      · rw [e4]
        simp only [true_or, true_iff]
        exact Or.inr ⟨p, by simp, hf, h1, hh⟩
    · exact skip (by unfold checkCallback; dsimp only; rw [if_neg hf, h2]; dsimp only; rw [if_neg hh])
        (fun h => hh h.2.2)

/-- Two objects of the frames collide. -/
def Hits (n : Nat) (frame : Nat → Nat) (hit : Nat → Nat → Bool) (q : Sym2 Nat) : Prop :=
  ∃ i j, i < n ∧ j < n ∧ frame i ≠ frame j ∧ hit i j = true ∧ q = s(frame i, frame j)

theorem bad_iff {m : Nat} {A : Sym2 Nat → Prop} {frame : Nat → Nat} {hit : Nat → Nat → Bool}
    (hsym : ∀ i j, hit i j = hit j i) {vs : List (Nat × Nat)} (hb : BroadPhase m hit vs) (q : Sym2 Nat) :
    (∃ p ∈ vs, Bad A frame hit p ∧ q = s(frame p.1, frame p.2)) ↔ ¬ A q ∧ Hits m frame hit q := by
  constructor
  · rintro ⟨p, hp, ⟨h1, h2, h3⟩, rfl⟩
    exact ⟨h2, p.1, p.2, (hb.1 p hp).1, (hb.1 p hp).2, h1, h3, rfl⟩
  · rintro ⟨h2, i, j, hi, hj, h1, h3, rfl⟩
    rcases hb.2 i j hi hj (fun h => h1 (h ▸ rfl)) h3 with h | h
    · exact ⟨_, h, ⟨h1, h2, h3⟩, rfl⟩
    · refine ⟨_, h, ⟨h1.symm, ?_, ?_⟩, Sym2.eq_swap⟩
      · rw [Sym2.eq_swap]; exact h2
      · rw [hsym]; exact h3

/-- The loop of checks, for any objects and answers of the library. -/
theorem check_spec {allowed : ClSet} {n m : Nat} {A : Sym2 Nat → Prop} (ha : Holds allowed n A)
    {frame : Nat → Nat} {hit : Nat → Nat → Bool} (hsym : ∀ i j, hit i j = hit j i)
    (hf : ∀ i, i < m → frame i < n) {vs : List (Nat × Nat)} (hb : BroadPhase m hit vs) :
    (∃ d, check allowed frame hit vs none = some d ∧ d.set = none ∧
      (d.result = true ↔ ∃ q, ¬ A q ∧ Hits m frame hit q)) ∧
    ∀ s S, Holds s n S → ∃ d s', check allowed frame hit vs (some s) = some d ∧ d.set = some s' ∧
      Holds s' n (fun q => S q ∨ (¬ A q ∧ Hits m frame hit q)) ∧
      (d.result = true ↔ ∃ q, ¬ A q ∧ Hits m frame hit q) := by
  have hv : ∀ p ∈ vs, frame p.1 < n ∧ frame p.2 < n := fun p hp =>
    ⟨hf _ (hb.1 p hp).1, hf _ (hb.1 p hp).2⟩
  have he : (∃ p ∈ vs, Bad A frame hit p) ↔ ∃ q, ¬ A q ∧ Hits m frame hit q := by
    constructor
    · rintro ⟨p, hp, h⟩
      exact ⟨_, (bad_iff hsym hb _).1 ⟨p, hp, h, rfl⟩⟩
    · rintro ⟨q, h⟩
      obtain ⟨p, hp, h, -⟩ := (bad_iff (A := A) hsym hb q).2 h
      exact ⟨p, hp, h⟩
  constructor
  · obtain ⟨d, e1, e2, e3⟩ := visit_none ha hit vs false hv
    exact ⟨d, e1, e2, by rw [e3, he]; simp⟩
  · intro s S hs
    obtain ⟨d, s', e1, e2, e3, e4⟩ := visit_some ha hit vs false s S hs hv
    refine ⟨d, s', e1, e2, holds_congr e3 fun i j _ _ => ?_, by rw [e4, he]; simp⟩
    rw [bad_iff hsym hb]

/-! ## The objects -/

theorem mem_objectsFrom : ∀ (scene : List (List Geom)) (k : Nat) (o : Obj), o ∈ objectsFrom k scene ↔
    ∃ a gs g, scene[a]? = some gs ∧ g ∈ gs ∧ createHelper (k + a) g = some o := by
  intro scene
  induction scene with
  | nil => intro k o; simp [objectsFrom]
  | cons gs r ih =>
    intro k o
    simp only [objectsFrom, List.mem_append, List.mem_filterMap, ih]
    constructor
    · rintro (⟨g, h1, h2⟩ | ⟨a, gs', g, h1, h2, h3⟩)
      · exact ⟨0, gs, g, rfl, h1, h2⟩
      · exact ⟨a + 1, gs', g, by simpa using h1, h2, by rw [← h3]; congr 1; omega⟩
    · rintro ⟨a, gs', g, h1, h2, h3⟩
      cases a with
      | zero => left; simp at h1; subst h1; exact ⟨g, h2, h3⟩
      | succ a => right; exact ⟨a, gs', g, by simpa using h1, h2, by rw [← h3]; congr 1; omega⟩

theorem mem_objects (scene : List (List Geom)) (o : Obj) : o ∈ objects scene ↔
    ∃ gs, scene[o.frame]? = some gs ∧ o.geom ∈ gs ∧ initHelper o.geom = some o.fcl := by
  unfold objects
  rw [mem_objectsFrom]
  constructor
  · rintro ⟨a, gs, g, h1, h2, h3⟩
    unfold createHelper at h3
    rw [Option.map_eq_some_iff] at h3
    obtain ⟨f, h3, rfl⟩ := h3
    exact ⟨gs, by simpa using h1, h2, h3⟩
  · rintro ⟨gs, h1, h2, h3⟩
    refine ⟨o.frame, gs, o.geom, h1, h2, ?_⟩
    unfold createHelper
    rw [h3, Nat.zero_add]
    rfl

/-! ## Shapes -/

/-- The geometry for which the code is right: meshes, boxes, spheres, and cylinders that are not
scaled. -/
def Supported (g : Geom) : Prop :=
  0 < g.scale ∧
  match g.shape with
  | .mesh _ _ => True
  | .box _ => True
  | .sphere _ => True
  | .cylinder h _ => 0 ≤ h ∧ g.scale = 1
  | _ => False

theorem vscal_inv {k : ℝ} (hk : k ≠ 0) (q : V3) : vscal k (vscal k⁻¹ q) = q := by
  obtain ⟨x, y, z⟩ := q
  simp only [vscal, V3.mk.injEq]
  refine ⟨?_, ?_, ?_⟩ <;> field_simp

theorem inTri_scale (k : ℝ) (a b c q : V3) :
    InTri (vscal k a) (vscal k b) (vscal k c) q ↔ ∃ q', InTri a b c q' ∧ q = vscal k q' := by
  constructor
  · rintro ⟨s, t, u, h1, h2, h3, h4, rfl⟩
    refine ⟨_, ⟨s, t, u, h1, h2, h3, h4, rfl⟩, ?_⟩
    simp only [vscal, vadd, V3.mk.injEq]
    refine ⟨?_, ?_, ?_⟩ <;> ring
  · rintro ⟨q', ⟨s, t, u, h1, h2, h3, h4, rfl⟩, rfl⟩
    refine ⟨s, t, u, h1, h2, h3, h4, ?_⟩
    simp only [vscal, vadd, V3.mk.injEq]
    refine ⟨?_, ?_, ?_⟩ <;> ring

theorem drawn_scale (k : ℝ) (v : List V3) (t : List (Nat × Nat × Nat)) (q : V3) :
    Drawn ⟨v.map fun v => ⟨k * v.x, k * v.y, k * v.z⟩, [], t⟩ q ↔
      ∃ q', Drawn ⟨v, [], t⟩ q' ∧ q = vscal k q' := by
  unfold Drawn
  simp only [List.getElem?_map, Option.map_eq_some_iff]
  constructor
  · rintro ⟨f, hf, a, b, c, ⟨a', ha, rfl⟩, ⟨b', hb, rfl⟩, ⟨c', hc, rfl⟩, h⟩
    obtain ⟨q', h1, h2⟩ := (inTri_scale k a' b' c' q).1 h
    exact ⟨q', ⟨f, hf, a', b', c', ha, hb, hc, h1⟩, h2⟩
  · rintro ⟨q', ⟨f, hf, a', b', c', ha, hb, hc, h1⟩, h2⟩
    exact ⟨f, hf, _, _, _, ⟨a', ha, rfl⟩, ⟨b', hb, rfl⟩, ⟨c', hc, rfl⟩,
      (inTri_scale k a' b' c' q).2 ⟨q', h1, h2⟩⟩

theorem abs_scale {k x d : ℝ} (hk : 0 < k) : |k * x| ≤ k * d / 2 ↔ |x| ≤ d / 2 := by
  rw [abs_mul, abs_of_pos hk, mul_div_assoc]
  exact mul_le_mul_iff_right₀ hk

/-- The placed FCL shape of an object is what the geometry occupies. -/
theorem placed_eq {o : Obj} (hi : initHelper o.geom = some o.fcl) (hs : Supported o.geom)
    (tf : Nat → Qutr) (p : V3) :
    placed (o.fcl, updateTf tf o) p ↔ o.geom.occupies (tf o.frame) p := by
  obtain ⟨i, ⟨col, k, sh⟩, f⟩ := o
  dsimp only at *
  obtain ⟨hk, hs⟩ := hs
  dsimp only at hk hs
  have tfp : ∀ E q, tfmTf (qutr2tfmat E) q = qutrTf E q := C26_point.1
  unfold initHelper at hi
  split at hi
  · rename_i hc
    unfold placed Geom.occupies
    dsimp only
    have key : ∀ (F : FclGeom) (G : V3 → Prop), (∀ q, F.solid q ↔ ∃ q', G q' ∧ q = vscal k q') →
        ((∃ q, F.solid q ∧ p = tfmTf (qutr2tfmat (tf i)) q) ↔
          ∃ q, G q ∧ p = qutrTf (tf i) (vscal k q)) := by
      intro F G h
      constructor
      · rintro ⟨q, h1, rfl⟩
        obtain ⟨q', h2, rfl⟩ := (h q).1 h1
        exact ⟨q', h2, tfp _ _⟩
      · rintro ⟨q', h2, rfl⟩
        exact ⟨_, (h _).2 ⟨q', h2, rfl⟩, (tfp _ _).symm⟩
    -- shapes that are closed under scaling
    have scale : ∀ (F : FclGeom) (G : V3 → Prop), (∀ q, F.solid (vscal k q) ↔ G q) →
        ∀ q, F.solid q ↔ ∃ q', G q' ∧ q = vscal k q' := by
      intro F G h q
      constructor
      · intro hq
        refine ⟨vscal k⁻¹ q, (h _).1 ?_, (vscal_inv hk.ne' q).symm⟩
        rw [vscal_inv hk.ne']; exact hq
      · rintro ⟨q', h', rfl⟩
        exact (h q').2 h'
    cases sh with
    | mesh v t =>
      cases hi
      exact key _ _ (drawn_scale k v t)
    | box d =>
      cases hi
      refine key _ _ (scale _ _ fun q => ?_)
      simp only [FclGeom.solid, Shape.solid, Box, vscal, abs_scale hk]
    | sphere r =>
      cases hi
      refine key _ _ (scale _ _ fun q => ?_)
      simp only [FclGeom.solid, Shape.solid, Ball, vscal, vdot]
      rw [show k * q.x * (k * q.x) + k * q.y * (k * q.y) + k * q.z * (k * q.z) =
        k ^ 2 * (q.x * q.x + q.y * q.y + q.z * q.z) by ring, mul_pow]
      exact mul_le_mul_iff_right₀ (by positivity)
    | cylinder h r =>
      cases hi
      obtain ⟨hh, rfl⟩ := hs
      have move : ∀ q, tfmTf (qutr2tfmat (qutrMul (tf i) ⟨qident, ⟨0, 0, h / 2⟩⟩)) q =
          qutrTf (tf i) (vscal 1 (vadd q ⟨0, 0, h / 2⟩)) := by
        intro q
        rw [tfp]
        generalize tf i = E
        obtain ⟨⟨a, b, c, d⟩, ⟨e, f, g⟩⟩ := E
        simp only [qutrTf, qutrMul, qmul, qident, vscal, vadd, V3.mk.injEq]
        refine ⟨?_, ?_, ?_⟩ <;> ring
      simp only [updateTf, FclGeom.solid, Shape.solid, Frustum]
      constructor
      · rintro ⟨q, ⟨h1, h2⟩, rfl⟩
        refine ⟨vadd q ⟨0, 0, h / 2⟩, ?_, move q⟩
        rw [abs_le] at h2
        rw [one_mul] at h1 h2
        simp only [vadd, add_zero]
        rcases hh.eq_or_lt with rfl | hh
        · exact ⟨0, le_refl _, zero_le_one, by linarith, by nlinarith⟩
        · refine ⟨(q.z + h / 2) / h, by apply div_nonneg <;> linarith, ?_, by field_simp, ?_⟩
          · rw [div_le_one hh]; linarith
          · rw [show (1 - (q.z + h / 2) / h) * r + (q.z + h / 2) / h * r = r by ring]; exact h1
      · rintro ⟨q, ⟨t, h1, h2, h3, h4⟩, rfl⟩
        refine ⟨vadd q ⟨0, 0, -(h / 2)⟩, ⟨?_, ?_⟩, ?_⟩
        · simp only [vadd, add_zero, one_mul]
          rw [show (1 - t) * r + t * r = r by ring] at h4
          exact h4
        · simp only [vadd]
          rw [h3, abs_le]
          constructor <;> nlinarith
        · rw [move]
          congr 2
          obtain ⟨x, y, z⟩ := q
          simp [vadd]
    | cone => cases hi
    | grid => cases hi
    | torus => cases hi
  · cases hi

/-! ## Theorem -/

/-- The objects of two frames that collide according to the library are overlapping geometry. -/
theorem hits_iff {collide : FclGeom × Tfm → FclGeom × Tfm → Bool} (hc : NarrowPhase collide)
    {scene : List (List Geom)} {tf : Nat → Qutr}
    (hs : ∀ gs ∈ scene, ∀ g ∈ gs, g.collision = true → Supported g) (a b : Nat) :
    Hits (objects scene).length (fun i => ((objects scene)[i]?.map (·.frame)).getD 0)
      (hitAt collide ((objects scene).map fun o => (o.fcl, updateTf tf o))) s(a, b) ↔
    a ≠ b ∧ Overlap scene tf a b := by
  have col : ∀ {o : Obj}, o ∈ objects scene → ∃ gs, scene[o.frame]? = some gs ∧ o.geom ∈ gs ∧
      initHelper o.geom = some o.fcl ∧ o.geom.collision = true ∧ Supported o.geom := by
    intro o ho
    obtain ⟨gs, h1, h2, h3⟩ := (mem_objects scene o).1 ho
    have h4 : o.geom.collision = true := by
      unfold initHelper at h3
      by_contra h
      rw [if_neg h] at h3
      cases h3
    exact ⟨gs, h1, h2, h3, h4, hs gs (List.mem_of_getElem? h1) _ h2 h4⟩
  have ex : ∀ {a : Nat} {g : Geom} {gs : List Geom}, scene[a]? = some gs → g ∈ gs → g.collision = true →
      ∃ f, initHelper g = some f := by
    intro a g gs h1 h2 h3
    have h := hs gs (List.mem_of_getElem? h1) g h2 h3
    unfold initHelper
    rw [if_pos h3]
    obtain ⟨c, k, sh⟩ := g
    cases sh <;> first | exact ⟨_, rfl⟩ | exact absurd h.2 id
  constructor
  · rintro ⟨i, j, hi, hj, hf, hh, he⟩
    obtain ⟨oi, ei⟩ : ∃ o, (objects scene)[i]? = some o := ⟨_, List.getElem?_eq_getElem hi⟩
    obtain ⟨oj, ej⟩ : ∃ o, (objects scene)[j]? = some o := ⟨_, List.getElem?_eq_getElem hj⟩
    simp only [hitAt, List.getElem?_map, ei, ej, Option.map_some, Option.getD_some] at hf hh he
    rw [hc] at hh
    obtain ⟨gi, i1, i2, i3, i4, i5⟩ := col (List.mem_of_getElem? ei)
    obtain ⟨gj, j1, j2, j3, j4, j5⟩ := col (List.mem_of_getElem? ej)
    obtain ⟨p, hp1, hp2⟩ := hh
    rw [placed_eq i3 i5] at hp1
    rw [placed_eq j3 j5] at hp2
    rcases Sym2.eq_iff.1 he with ⟨rfl, rfl⟩ | ⟨rfl, rfl⟩
    · exact ⟨hf, _, _, _, _, i1, j1, i2, j2, i4, j4, p, hp1, hp2⟩
    · exact ⟨hf.symm, _, _, _, _, j1, i1, j2, i2, j4, i4, p, hp2, hp1⟩
  · rintro ⟨hne, ga, gb, gas, gbs, ha, hb, ma, mb, ca, cb, p, hp1, hp2⟩
    obtain ⟨fa, ea⟩ := ex ha ma ca
    obtain ⟨fb, eb⟩ := ex hb mb cb
    have oa : (⟨a, ga, fa⟩ : Obj) ∈ objects scene := (mem_objects _ _).2 ⟨gas, ha, ma, ea⟩
    have ob : (⟨b, gb, fb⟩ : Obj) ∈ objects scene := (mem_objects _ _).2 ⟨gbs, hb, mb, eb⟩
    obtain ⟨i, hi, ei⟩ := List.getElem_of_mem oa
    obtain ⟨j, hj, ej⟩ := List.getElem_of_mem ob
    refine ⟨i, j, hi, hj, ?_, ?_, ?_⟩
    · simp only [List.getElem?_eq_getElem hi, List.getElem?_eq_getElem hj, ei, ej, Option.map_some,
        Option.getD_some]
      exact hne
    · simp only [hitAt, List.getElem?_map, List.getElem?_eq_getElem hi, List.getElem?_eq_getElem hj,
        ei, ej, Option.map_some]
      rw [hc]
      exact ⟨p, (placed_eq (o := ⟨a, ga, fa⟩) ea (col oa).choose_spec.2.2.2.2 tf p).2 hp1,
        (placed_eq (o := ⟨b, gb, fb⟩) eb (col ob).choose_spec.2.2.2.2 tf p).2 hp2⟩
    · simp only [List.getElem?_eq_getElem hi, List.getElem?_eq_getElem hj, ei, ej, Option.map_some,
        Option.getD_some]

/-- A check, in terms of sets of pairs. -/
theorem clCheck_spec {collide : FclGeom × Tfm → FclGeom × Tfm → Bool} (hc : NarrowPhase collide)
    {scene : List (List Geom)} {tf : Nat → Qutr} {allowed : ClSet} {A : Sym2 Nat → Prop}
    (ha : Holds allowed scene.length A)
    (hs : ∀ gs ∈ scene, ∀ g ∈ gs, g.collision = true → Supported g) {visits : List (Nat × Nat)}
    (hb : BroadPhase (objects scene).length
      (hitAt collide ((objects scene).map fun o => (o.fcl, updateTf tf o))) visits) :
    (∃ d, clCheck collide scene allowed tf visits none = some d ∧ d.set = none ∧
      (d.result = true ↔ ∃ p, ¬ A p ∧ ∃ a b, p = s(a, b) ∧ a ≠ b ∧ Overlap scene tf a b)) ∧
    ∀ s S, Holds s scene.length S →
      ∃ d s', clCheck collide scene allowed tf visits (some s) = some d ∧ d.set = some s' ∧
        (d.result = true ↔ ∃ p, ¬ A p ∧ ∃ a b, p = s(a, b) ∧ a ≠ b ∧ Overlap scene tf a b) ∧
        Holds s' scene.length
          (fun p => S p ∨ (¬ A p ∧ ∃ a b, p = s(a, b) ∧ a ≠ b ∧ Overlap scene tf a b)) := by
  have hsym : ∀ i j, hitAt collide ((objects scene).map fun o => (o.fcl, updateTf tf o)) i j =
      hitAt collide ((objects scene).map fun o => (o.fcl, updateTf tf o)) j i := by
    intro i j
    unfold hitAt
    generalize ((objects scene).map fun o => (o.fcl, updateTf tf o))[i]? = x
    generalize ((objects scene).map fun o => (o.fcl, updateTf tf o))[j]? = y
    cases x <;> cases y <;> try rfl
    rename_i x y
    dsimp only
    rw [Bool.eq_iff_iff, hc, hc]
    exact ⟨fun ⟨p, h1, h2⟩ => ⟨p, h2, h1⟩, fun ⟨p, h1, h2⟩ => ⟨p, h2, h1⟩⟩
  have hf : ∀ i, i < (objects scene).length →
      ((objects scene)[i]?.map (·.frame)).getD 0 < scene.length := by
    intro i hi
    rw [List.getElem?_eq_getElem hi]
    obtain ⟨gs, h1, -⟩ := (mem_objects scene _).1 (List.getElem_mem hi)
    exact (List.getElem?_eq_some_iff.1 h1).1
  have hh : ∀ p, Hits (objects scene).length (fun i => ((objects scene)[i]?.map (·.frame)).getD 0)
      (hitAt collide ((objects scene).map fun o => (o.fcl, updateTf tf o))) p ↔
      ∃ a b, p = s(a, b) ∧ a ≠ b ∧ Overlap scene tf a b := by
    intro p
    constructor
    · intro h
      induction p with
      | _ a b => exact ⟨a, b, rfl, (hits_iff hc hs a b).1 h⟩
    · rintro ⟨a, b, rfl, h⟩
      exact (hits_iff hc hs a b).2 h
  obtain ⟨⟨d, e1, e2, e3⟩, h2⟩ := check_spec ha hsym hf hb
  simp only [hh] at e3 h2
  refine ⟨⟨d, e1, e2, e3⟩, fun s S hS => ?_⟩
  obtain ⟨d, s', k1, k2, k3, k4⟩ := h2 s S hS
  exact ⟨d, s', k1, k2, k4, k3⟩

/-- **C88** for meshes, boxes, spheres and unscaled cylinders.  Missing: cones, tori, grids and
scaled cylinders (`C88_violates_cone`, `C88_violates_cylinder`). -/
theorem C88_check_partial (collide : FclGeom × Tfm → FclGeom × Tfm → Bool) (hc : NarrowPhase collide)
    (scene : List (List Geom)) (tf : Nat → Qutr) (allowed : ClSet) (A : Sym2 Nat → Prop)
    (ha : Holds allowed scene.length A)
    (hs : ∀ gs ∈ scene, ∀ g ∈ gs, g.collision = true → Supported g) (visits : List (Nat × Nat))
    (hb : BroadPhase (objects scene).length
      (hitAt collide ((objects scene).map fun o => (o.fcl, updateTf tf o))) visits) :
    (∃ d, clCheck collide scene allowed tf visits none = some d ∧ d.set = none ∧
      (d.result = true ↔ ∃ a b, a ≠ b ∧ ¬ A s(a, b) ∧ Overlap scene tf a b)) ∧
    ∀ s S, Holds s scene.length S →
      ∃ d s', clCheck collide scene allowed tf visits (some s) = some d ∧ d.set = some s' ∧
        (d.result = true ↔ ∃ a b, a ≠ b ∧ ¬ A s(a, b) ∧ Overlap scene tf a b) ∧
        ∀ a b : Nat, a < scene.length → b < scene.length → ∃ x, clGet s' a b = some x ∧
          (x = true ↔ S s(a, b) ∨ (a ≠ b ∧ ¬ A s(a, b) ∧ Overlap scene tf a b)) := by
  have hex : (∃ p, ¬ A p ∧ ∃ a b, p = s(a, b) ∧ a ≠ b ∧ Overlap scene tf a b) ↔
      ∃ a b, a ≠ b ∧ ¬ A s(a, b) ∧ Overlap scene tf a b := by
    constructor
    · rintro ⟨_, h1, a, b, rfl, h2, h3⟩
      exact ⟨a, b, h2, h1, h3⟩
    · rintro ⟨a, b, h2, h1, h3⟩
      exact ⟨_, h1, a, b, rfl, h2, h3⟩
  obtain ⟨⟨d, e1, e2, e3⟩, h2⟩ := clCheck_spec (tf := tf) hc ha hs hb
  refine ⟨⟨d, e1, e2, e3.trans hex⟩, fun s S hS => ?_⟩
  obtain ⟨d, s', k1, k2, k4, k3⟩ := h2 s S hS
  refine ⟨d, s', k1, k2, k4.trans hex, fun a b ha' hb' => ?_⟩
  obtain ⟨x, l1, l2⟩ := k3.2.2 a b ha' hb'
  refine ⟨x, l1, l2.trans (or_congr Iff.rfl ?_)⟩
  constructor
  · rintro ⟨h1, a', b', h2, h3, h4⟩
    rcases Sym2.eq_iff.1 h2 with ⟨rfl, rfl⟩ | ⟨rfl, rfl⟩
    · exact ⟨h3, h1, h4⟩
    · obtain ⟨g1, g2, g3, g4, q1, q2, q3, q4, q5, q6, q, q7, q8⟩ := h4
      exact ⟨h3.symm, h1, g2, g1, g4, g3, q2, q1, q4, q3, q6, q5, q, q8, q7⟩
  · rintro ⟨h3, h1, h4⟩
    exact ⟨h1, a, b, rfl, h3, h4⟩

/-! ## Cases -/

/-- A library that meets the contract. -/
noncomputable def ideal (a b : FclGeom × Tfm) : Bool := by
  classical exact decide (∃ p, placed a p ∧ placed b p)

theorem ideal_ok : NarrowPhase ideal := by
  intro a b
  unfold ideal
  simp

theorem holds_create (n : Nat) : Holds (clCreate n) n (fun _ => False) := by
  refine ⟨rfl, by simp [clCreate], fun i j hi hj => ⟨false, ?_, by simp⟩⟩
  have h := (holds_rep (s := clCreate n) (n := n) (S := fun _ => False)).2
    ⟨rfl, by simp [clCreate], fun i j hi hj => by
      have := cpos_lt (n := n) hi hj
      simp [clCreate, this]⟩
  obtain ⟨b, e, hb⟩ := h.2.2 i j hi hj
  cases b
  · exact e
  · exact absurd (hb.1 rfl) id

open Classical in
theorem holds_fill {d s : ClSet} {n : Nat} {D S : Sym2 Nat → Prop} (hd : Holds d n D) (hs : Holds s n S) :
    Holds (clFill d s) n S :=
  holds_rep.2 (clFill_rep (holds_rep.1 hd) (holds_rep.1 hs))

open Classical in
theorem holds_merge_empty {d : ClSet} {n : Nat} {D : Sym2 Nat → Prop} (hd : Holds d n D) :
    ∃ d', clMerge d (clCreate n) = some d' ∧ Holds d' n D := by
  obtain ⟨d', e, r⟩ := clMerge_rep (holds_rep.1 hd) (clCreate_rep n)
  exact ⟨d', e, holds_rep.2 (r.congr fun p => by simp)⟩

open Classical in
theorem holds_update {s : ClSet} {n : Nat} {S : Sym2 Nat → Prop} (h : Holds s n S) {i j : Nat}
    (b : Bool) (hi : i < n) (hj : j < n) :
    ∃ s', clSet s i j b = some s' ∧ Holds s' n (fun p => if p = s(i, j) then b = true else S p) := by
  obtain ⟨s', e, r⟩ := clSet_eq (holds_rep.1 h) b hi hj
  refine ⟨s', e, holds_rep.2 (r.congr fun p => ?_)⟩
  by_cases hp : p = s(i, j)
  · subst hp; simp
  · rw [Function.update_of_ne hp]; simp [hp]

theorem holds_clear {s : ClSet} {n : Nat} {S : Sym2 Nat → Prop} (h : Holds s n S) :
    ∃ s', clClear s = some s' ∧ Holds s' n (fun _ => False) := by
  classical
  exact ⟨_, clClear_eq (holds_rep.1 h), holds_create n⟩

/-- The pose without rotation. -/
def at' (x y z : ℝ) : Qutr := ⟨qident, ⟨x, y, z⟩⟩

theorem tf_at (x y z : ℝ) (q : V3) : qutrTf (at' x y z) q = ⟨q.x + x, q.y + y, q.z + z⟩ := by
  obtain ⟨a, b, c⟩ := q
  simp only [qutrTf, qident, at', V3.mk.injEq]
  refine ⟨?_, ?_, ?_⟩ <;> ring

/-- Two spheres, and a context that checks them. -/
example : ∃ d, clCheck ideal [[⟨true, 1, .sphere 1⟩], [⟨true, 2, .sphere 1⟩]] (clCreate 2)
    (fun i => if i = 0 then at' 0 0 0 else at' 0 0 2) [(0, 1)] none = some d ∧ d.result = true := by
  obtain ⟨⟨d, h1, -, h2⟩, -⟩ := C88_check_partial ideal ideal_ok
    [[⟨true, 1, .sphere 1⟩], [⟨true, 2, .sphere 1⟩]]
    (fun i => if i = 0 then at' 0 0 0 else at' 0 0 2) (clCreate 2) (fun _ => False) (holds_create 2)
    (by intro gs h1 g h2 _; simp at h1; rcases h1 with rfl | rfl <;> simp at h2 <;> subst h2 <;>
        simp [Supported])
    [(0, 1)]
    (by
      have : (objects [[⟨true, 1, .sphere 1⟩], [⟨true, 2, .sphere 1⟩]]).length = 2 := rfl
      rw [this]
      refine ⟨by simp, fun i j hi hj hne _ => ?_⟩
      have : i = 0 ∧ j = 1 ∨ i = 1 ∧ j = 0 := by omega
      rcases this with ⟨rfl, rfl⟩ | ⟨rfl, rfl⟩ <;> simp)
  refine ⟨d, h1, h2.2 ⟨0, 1, by decide, id, ⟨true, 1, .sphere 1⟩, ⟨true, 2, .sphere 1⟩, _, _, rfl, rfl,
    by simp, by simp, rfl, rfl, ⟨0, 0, 1⟩, ⟨⟨0, 0, 1⟩, ?_, ?_⟩, ⟨⟨0, 0, -(1 / 2)⟩, ?_, ?_⟩⟩⟩
  · simp [Shape.solid, Ball, vdot]
  · simp [tf_at, vscal]
  · norm_num [Shape.solid, Ball, vdot]
  · norm_num [tf_at, vscal]

/-- **C88** fails for cones (also truncated ones, tori and grids): they have no collision object, so
that two cones in the same place do not collide.  The code prints a warning for each. -/
theorem C88_violates_cone (collide : FclGeom × Tfm → FclGeom × Tfm → Bool)
    (visits : List (Nat × Nat))
    (hb : BroadPhase (objects [[⟨true, 1, .cone 1 1 0⟩], [⟨true, 1, .cone 1 1 0⟩]]).length
      (fun _ _ => false) visits) :
    Overlap [[⟨true, 1, .cone 1 1 0⟩], [⟨true, 1, .cone 1 1 0⟩]] (fun _ => at' 0 0 0) 0 1 ∧
    ∃ d, clCheck collide [[⟨true, 1, .cone 1 1 0⟩], [⟨true, 1, .cone 1 1 0⟩]] (clCreate 2)
      (fun _ => at' 0 0 0) visits none = some d ∧ d.result = false := by
  constructor
  · have h : (⟨true, 1, .cone 1 1 0⟩ : Geom).occupies (at' 0 0 0) ⟨0, 0, 0⟩ :=
      ⟨⟨0, 0, 0⟩, ⟨0, le_refl _, zero_le_one, by norm_num, by norm_num⟩, by simp [tf_at, vscal]⟩
    exact ⟨_, _, _, _, rfl, rfl, by simp, by simp, rfl, rfl, _, h, h⟩
  · have : visits = [] := by
      cases visits with
      | nil => rfl
      | cons p l => exact absurd (hb.1 p (by simp)).1 (Nat.not_lt_zero _)
    subst this
    exact ⟨_, rfl, rfl⟩

/-- **C88** fails for scaled cylinders: they are moved along their axis by half of the height without
the scale.  A cylinder of height 1 scaled by 2 reaches up to `z = 2`, but a ball around `z = 7/4` is
said not to collide with it. -/
theorem C88_violates_cylinder (collide : FclGeom × Tfm → FclGeom × Tfm → Bool)
    (hc : NarrowPhase collide) (visits : List (Nat × Nat))
    (hv : visits = [] ∨ visits = [(0, 1)] ∨ visits = [(1, 0)]) :
    Overlap [[⟨true, 2, .cylinder 1 1⟩], [⟨true, 1, .sphere (1 / 8)⟩]]
      (fun i => if i = 0 then at' 0 0 0 else at' 0 0 (7 / 4)) 0 1 ∧
    ∃ d, clCheck collide [[⟨true, 2, .cylinder 1 1⟩], [⟨true, 1, .sphere (1 / 8)⟩]] (clCreate 2)
      (fun i => if i = 0 then at' 0 0 0 else at' 0 0 (7 / 4)) visits none = some d ∧
      d.result = false := by
  constructor
  · refine ⟨⟨true, 2, .cylinder 1 1⟩, ⟨true, 1, .sphere (1 / 8)⟩, _, _, rfl, rfl, by simp, by simp, rfl,
      rfl, ⟨0, 0, 7 / 4⟩,
      ⟨⟨0, 0, 7 / 8⟩, ⟨7 / 8, by norm_num, by norm_num, by norm_num, by norm_num⟩,
        by norm_num [tf_at, vscal]⟩,
      ⟨⟨0, 0, 0⟩, by norm_num [Shape.solid, Ball, vdot], by norm_num [tf_at, vscal]⟩⟩
  · -- the library finds no common point
    have no : ∀ p, placed (.cylinder (2 * 1) (2 * 1),
          qutr2tfmat (qutrMul (at' 0 0 0) ⟨qident, ⟨0, 0, 1 / 2⟩⟩)) p →
        placed (.sphere (1 * (1 / 8)), qutr2tfmat (at' 0 0 (7 / 4))) p → False := by
      rintro p ⟨q, ⟨-, h2⟩, rfl⟩ ⟨q', h3, h4⟩
      have e : qutrMul (at' 0 0 0) ⟨qident, ⟨0, 0, 1 / 2⟩⟩ = at' 0 0 (1 / 2) := by
        simp [qutrMul, at', qmul, qident, qutrTf]
      rw [e, C26_point.1, C26_point.1, tf_at, tf_at] at h4
      have h5 : q.z + 1 / 2 = q'.z + 7 / 4 := (V3.mk.inj h4).2.2
      rw [abs_le] at h2
      have h6 : q'.z * q'.z ≤ (1 / 8) * (1 / 8) := by
        have := h3
        simp only [FclGeom.solid, Ball, vdot] at this
        nlinarith [mul_self_nonneg q'.x, mul_self_nonneg q'.y]
      nlinarith [h2.2]
    have f01 := hc (.cylinder (2 * 1) (2 * 1),
      qutr2tfmat (qutrMul (at' 0 0 0) ⟨qident, ⟨0, 0, 1 / 2⟩⟩))
      (.sphere (1 * (1 / 8)), qutr2tfmat (at' 0 0 (7 / 4)))
    have f10 := hc (.sphere (1 * (1 / 8)), qutr2tfmat (at' 0 0 (7 / 4))) (.cylinder (2 * 1) (2 * 1),
      qutr2tfmat (qutrMul (at' 0 0 0) ⟨qident, ⟨0, 0, 1 / 2⟩⟩))
    have g01 := Bool.eq_false_iff.2 fun h => let ⟨p, a, b⟩ := f01.1 h; no p a b
    have g10 := Bool.eq_false_iff.2 fun h => let ⟨p, a, b⟩ := f10.1 h; no p b a
    have k01 : clGet (clCreate 2) 0 1 = some false := by decide
    have k10 : clGet (clCreate 2) 1 0 = some false := by decide
    rcases hv with rfl | rfl | rfl
    · exact ⟨_, rfl, rfl⟩
    · refine ⟨⟨false, none⟩, ?_, rfl⟩
      simp [clCheck, check, visit, checkCallback, objects, objectsFrom, createHelper, initHelper,
        hitAt, updateTf, k01]
      rw [if_neg (by simpa using g01)]
    · refine ⟨⟨false, none⟩, ?_, rfl⟩
      simp [clCheck, check, visit, checkCallback, objects, objectsFrom, createHelper, initHelper,
        hitAt, updateTf, k10]
      rw [if_neg (by simpa using g10)]

end Verif.Fcl
