import Verif.Model.GlMesh
import Verif.Prop.Rotmat

/-!
# C85: the meshes drawn for shapes lie on the shapes
-/

namespace Verif.GlMesh

open Verif.Tf

/-! ## Specification -/

/-- Every index refers to a vertex. -/
def Indexed (m : Mesh) : Prop :=
  ∀ t ∈ m.tris, t.1 < m.verts.length ∧ t.2.1 < m.verts.length ∧ t.2.2 < m.verts.length

/-- `v` is a point of the solid `S`, and the solid lies behind the plane through `v` across the unit
vector `n`.  So `v` is on the surface and `n` points outwards. -/
def Outward (S : V3 → Prop) (v n : V3) : Prop :=
  S v ∧ vdot n n = 1 ∧ ∀ q, S q → vdot n q ≤ vdot n v

/-- `v` is on the surface of the solid. -/
def OnSurface (S : V3 → Prop) (v : V3) : Prop := ∃ n, Outward S v n

/-- A box around the origin. -/
def Box (dim : V3) (q : V3) : Prop :=
  |q.x| ≤ dim.x / 2 ∧ |q.y| ≤ dim.y / 2 ∧ |q.z| ≤ dim.z / 2

/-- A ball around the origin. -/
def Ball (r : ℝ) (q : V3) : Prop := vdot q q ≤ r ^ 2

/-- A truncated cone on the plane `z = 0`. -/
def Frustum (h r0 r1 : ℝ) (q : V3) : Prop :=
  ∃ t, 0 ≤ t ∧ t ≤ 1 ∧ q.z = t * h ∧ q.x ^ 2 + q.y ^ 2 ≤ ((1 - t) * r0 + t * r1) ^ 2

/-- `v` is at the distance `r` from the arc of radius `R` and the given angle about the z axis, in the
direction of the unit vector `n`, which is across the arc. -/
def OnTorus (angle R r : ℝ) (v n : V3) : Prop :=
  ∃ phi, 0 ≤ phi ∧ phi ≤ angle ∧ vdot n n = 1 ∧
    vdot n ⟨-Real.sin phi, Real.cos phi, 0⟩ = 0 ∧
    v = vadd ⟨R * Real.cos phi, R * Real.sin phi, 0⟩ (vscal r n)

/-! ## Box -/

theorem box_outward {dim : V3} (v n : V3) (hv : Box dim v) (hn : vdot n n = 1)
    (h : ∀ q, Box dim q → vdot n q ≤ vdot n v) : Outward (Box dim) v n := ⟨hv, hn, h⟩

/-- **C85**, box. -/
theorem C85_box (dim : V3) (hx : 0 ≤ dim.x) (hy : 0 ≤ dim.y) (hz : 0 ≤ dim.z) :
    Indexed (box dim) ∧ List.Forall₂ (Outward (Box dim)) (box dim).verts (box dim).normals := by
  have ax : |dim.x / 2| ≤ dim.x / 2 := by rw [abs_of_nonneg (by linarith)]
  have ay : |dim.y / 2| ≤ dim.y / 2 := by rw [abs_of_nonneg (by linarith)]
  have az : |dim.z / 2| ≤ dim.z / 2 := by rw [abs_of_nonneg (by linarith)]
  constructor
  · intro t ht
    simp only [box, boxTris, List.mem_cons, List.not_mem_nil, or_false] at ht
    simp only [box, boxCorners, List.range, List.range.loop, List.flatMap_cons, List.flatMap_nil,
      List.map_cons, List.map_nil, List.cons_append, List.nil_append, List.length_cons,
      List.length_nil]
    rcases ht with rfl | rfl | rfl | rfl | rfl | rfl | rfl | rfl | rfl | rfl | rfl | rfl <;>
      exact ⟨by norm_num, by norm_num, by norm_num⟩
  · simp only [box, boxCorners, List.range, List.range.loop, List.flatMap_cons, List.flatMap_nil,
      List.map_cons, List.map_nil, List.cons_append, List.nil_append, List.append_nil, sg,
      if_true, one_ne_zero, if_false, one_mul, neg_one_mul]
    repeat' apply List.Forall₂.cons
    on_goal 25 => exact List.Forall₂.nil
    all_goals
      refine ⟨⟨?_, ?_, ?_⟩, by simp [vdot], fun q hq => ?_⟩
      · simpa using ax
      · simpa using ay
      · simpa using az
      · obtain ⟨h1, h2, h3⟩ := hq
        have h1 := abs_le.1 h1
        have h2 := abs_le.1 h2
        have h3 := abs_le.1 h3
        simp only [vdot]
        linarith [h1.1, h1.2, h2.1, h2.2, h3.1, h3.2]

/-! ## Cone and cylinder -/

theorem forall₂_flatMap {α β γ : Type} {R : β → γ → Prop} (l : List α) (f : α → List β)
    (g : α → List γ) (h : ∀ x ∈ l, List.Forall₂ R (f x) (g x)) :
    List.Forall₂ R (l.flatMap f) (l.flatMap g) := by
  induction l with
  | nil => exact List.Forall₂.nil
  | cons a l ih =>
    rw [List.flatMap_cons, List.flatMap_cons]
    exact List.rel_append (h a List.mem_cons_self) (ih fun x hx => h x (List.mem_cons_of_mem _ hx))

theorem forall₂_map {α β γ : Type} {R : β → γ → Prop} (l : List α) (f : α → β)
    (g : α → γ) (h : ∀ x ∈ l, R (f x) (g x)) : List.Forall₂ R (l.map f) (l.map g) := by
  induction l with
  | nil => exact List.Forall₂.nil
  | cons a l ih =>
    exact List.Forall₂.cons (h a List.mem_cons_self) (ih fun x hx => h x (List.mem_cons_of_mem _ hx))

theorem coneSide_length (h r0 r1 : ℝ) : (coneSide h r0 r1).length = 72 := by
  simp [coneSide, sides]

theorem cone_length (h r0 r1 : ℝ) : (coneCylinder h r0 r1).verts.length = 146 := by
  simp [coneCylinder, coneSide_length]

theorem cone_indexed (h r0 r1 : ℝ) : Indexed (coneCylinder h r0 r1) := by
  intro t ht
  rw [cone_length]
  simp only [coneCylinder, coneSide_length, List.mem_append] at ht
  rcases ht with ht | ht
  · simp only [coneSideTris, List.mem_flatMap, List.mem_range, sides] at ht
    obtain ⟨i, hi, ht⟩ := ht
    simp only [List.mem_cons, List.not_mem_nil, or_false] at ht
    rcases ht with rfl | rfl <;> refine ⟨?_, ?_, ?_⟩ <;> dsimp only <;> omega
  · simp only [coneEndTris, List.mem_flatMap, List.mem_range, sides, List.mem_map] at ht
    obtain ⟨i, hi, j, hj, rfl⟩ := ht
    unfold pick
    refine ⟨?_, ?_, ?_⟩ <;> dsimp only <;> split <;> omega

theorem frustum_z {h r0 r1 : ℝ} (hh : 0 ≤ h) {q : V3} (hq : Frustum h r0 r1 q) : 0 ≤ q.z ∧ q.z ≤ h := by
  obtain ⟨t, h0, h1, hz, -⟩ := hq
  rw [hz]
  constructor <;> nlinarith

/-- A point of either end. -/
theorem end_outward {h r0 r1 : ℝ} (hh : 0 ≤ h) (j : Nat) {v : V3} (hz : v.z = pick 0 h j)
    (hv : v.x ^ 2 + v.y ^ 2 ≤ pick r0 r1 j ^ 2) :
    Outward (Frustum h r0 r1) v ⟨0, 0, pick (-1) 1 j⟩ := by
  unfold pick at *
  by_cases hj : j = 0
  · simp only [hj, if_true] at *
    refine ⟨⟨0, le_rfl, zero_le_one, by rw [hz]; ring, by simpa using hv⟩, by simp [vdot], ?_⟩
    intro q hq
    have := (frustum_z hh hq).1
    simp only [vdot, hz]
    linarith
  · simp only [hj, if_false] at *
    refine ⟨⟨1, zero_le_one, le_rfl, by rw [hz]; ring, by simpa using hv⟩, by simp [vdot], ?_⟩
    intro q hq
    have := (frustum_z hh hq).2
    simp only [vdot, hz]
    linarith

theorem circle_sq (a r : ℝ) : (Real.cos a * r) ^ 2 + (Real.sin a * r) ^ 2 = r ^ 2 := by
  have := Real.sin_sq_add_cos_sq a
  linear_combination r ^ 2 * this

theorem ends_outward {h : ℝ} (hh : 0 ≤ h) (r0 r1 : ℝ) :
    List.Forall₂ (Outward (Frustum h r0 r1)) (coneSide h r0 r1) coneEndNormals := by
  refine forall₂_flatMap _ _ _ fun i _ => forall₂_map _ _ _ fun j _ => ?_
  exact end_outward hh j rfl (circle_sq _ _).le

theorem centres_outward {h : ℝ} (hh : 0 ≤ h) (r0 r1 : ℝ) :
    List.Forall₂ (Outward (Frustum h r0 r1)) ((List.range 2).map fun j => ⟨0, 0, pick 0 h j⟩)
      ((List.range 2).map fun j => ⟨0, 0, pick (-1) 1 j⟩) := by
  refine forall₂_map _ _ _ fun j _ => end_outward hh j rfl ?_
  simpa using sq_nonneg (pick r0 r1 j)

theorem cyl_side_outward {h : ℝ} (hh : 0 ≤ h) {r : ℝ} (hr : 0 ≤ r) :
    List.Forall₂ (Outward (Frustum h r r)) (coneSide h r r) coneSideNormals := by
  refine forall₂_flatMap _ _ _ fun i _ => forall₂_map _ _ _ fun j _ => ?_
  have hp : pick r r j = r := by unfold pick; split <;> rfl
  have hc := Real.sin_sq_add_cos_sq (theta i)
  rw [hp]
  refine ⟨(end_outward hh j (v := ⟨_, _, _⟩) rfl ?_).1, ?_, ?_⟩
  · rw [hp]; exact (circle_sq _ _).le
  · simp only [vdot]; linear_combination hc
  · rintro ⟨x, y, z⟩ ⟨t, -, -, -, hq⟩
    have hq' : x ^ 2 + y ^ 2 ≤ r ^ 2 := by
      have e : (1 - t) * r + t * r = r := by ring
      rw [e] at hq; exact hq
    simp only [vdot]
    have e : Real.cos (theta i) * (Real.cos (theta i) * r) + Real.sin (theta i) *
        (Real.sin (theta i) * r) + 0 * pick 0 h j = r := by linear_combination r * hc
    rw [e]
    have : (Real.cos (theta i) * x + Real.sin (theta i) * y) ^ 2 ≤ r ^ 2 := by
      have := sq_nonneg (Real.cos (theta i) * y - Real.sin (theta i) * x)
      nlinarith
    have := abs_le_of_sq_le_sq' this hr
    linarith [this.2]

/-- **C85**, cylinder. -/
theorem C85_cylinder (h r : ℝ) (hh : 0 ≤ h) (hr : 0 ≤ r) :
    Indexed (cylinder h r) ∧
      List.Forall₂ (Outward (Frustum h r r)) (cylinder h r).verts (cylinder h r).normals :=
  ⟨cone_indexed h r r, List.rel_append (cyl_side_outward hh hr)
    (List.rel_append (ends_outward hh r r) (centres_outward hh r r))⟩

/-- **C85**, cone: indices, positions, and the normals of the ends.  Missing: the normals of the side
(`C85_violates_cone`). -/
theorem C85_cone_partial (h r0 r1 : ℝ) (hh : 0 ≤ h) :
    Indexed (coneCylinder h r0 r1) ∧
      (coneCylinder h r0 r1).normals.length = (coneCylinder h r0 r1).verts.length ∧
      (∀ v ∈ (coneCylinder h r0 r1).verts, OnSurface (Frustum h r0 r1) v) ∧
      List.Forall₂ (Outward (Frustum h r0 r1)) ((coneCylinder h r0 r1).verts.drop 72)
        ((coneCylinder h r0 r1).normals.drop 72) := by
  have hl : coneSideNormals.length = 72 := by simp [coneSideNormals, sides]
  have hl' := coneSide_length h r0 r1
  have he := List.rel_append (ends_outward hh r0 r1) (centres_outward hh r0 r1)
  have on : ∀ {l : List V3} {n : List V3}, List.Forall₂ (Outward (Frustum h r0 r1)) l n →
      ∀ v ∈ l, OnSurface (Frustum h r0 r1) v := by
    intro l n hf
    induction hf with
    | nil => intro v hv; cases hv
    | cons h1 _ ih =>
      intro v hv
      rcases List.mem_cons.1 hv with rfl | hv
      · exact ⟨_, h1⟩
      · exact ih v hv
  refine ⟨cone_indexed h r0 r1, ?_, ?_, ?_⟩
  · have := he.length_eq
    simp only [coneCylinder, List.length_append, hl, hl'] at this ⊢
    omega
  · intro v hv
    rcases List.mem_append.1 hv with hv | hv
    · exact on (ends_outward hh r0 r1) v hv
    · exact on he v hv
  · simp only [coneCylinder]
    rw [← hl', List.drop_left, hl', ← hl, List.drop_left]
    exact he

/-- **C85 fails for cones**: whenever the radii differ, a normal of the side is not one of the
cone. -/
theorem C85_violates_cone (h r0 r1 : ℝ) (hne : r0 ≠ r1) :
    ¬ List.Forall₂ (Outward (Frustum h r0 r1)) (coneCylinder h r0 r1).verts
      (coneCylinder h r0 r1).normals := by
  intro hf
  have hv : ∀ j, j < 2 → (coneCylinder h r0 r1).verts[j]? = some ⟨pick r0 r1 j, 0, pick 0 h j⟩ := by
    intro j hj
    have : j = 0 ∨ j = 1 := by omega
    rcases this with rfl | rfl <;>
      simp [coneCylinder, coneSide, sides, List.range, List.range.loop, theta]
  have hn : ∀ j, j < 2 → (coneCylinder h r0 r1).normals[j]? = some ⟨1, 0, 0⟩ := by
    intro j hj
    have : j = 0 ∨ j = 1 := by omega
    rcases this with rfl | rfl <;>
      simp [coneCylinder, coneSideNormals, sides, List.range, List.range.loop, theta]
  have key : ∀ j, j < 2 → ∀ q, Frustum h r0 r1 q → q.x ≤ pick r0 r1 j := by
    intro j hj q hq
    obtain ⟨l1, e1⟩ := List.getElem?_eq_some_iff.1 (hv j hj)
    obtain ⟨l2, e2⟩ := List.getElem?_eq_some_iff.1 (hn j hj)
    have := List.Forall₂.get hf l1 l2
    simp only [List.get_eq_getElem, e1, e2] at this
    have := this.2.2 q hq
    simpa [vdot] using this
  have k0 := key 0 (by norm_num) ⟨r1, 0, h⟩ ⟨1, zero_le_one, le_rfl, by ring, by simp⟩
  have k1 := key 1 (by norm_num) ⟨r0, 0, 0⟩ ⟨0, le_rfl, zero_le_one, by ring, by simp⟩
  simp only [pick, if_true, one_ne_zero, if_false] at k0 k1
  exact hne (le_antisymm k1 k0)

/-! ## Torus -/

theorem torusPhi_range {angle : ℝ} (ha : 0 ≤ angle) (n j : Nat) :
    0 ≤ torusPhi angle n j ∧ torusPhi angle n j ≤ angle := by
  unfold torusPhi
  dsimp only
  split
  · exact ⟨ha, le_rfl⟩
  · rename_i h
    exact ⟨by positivity, not_lt.1 h⟩

theorem torus_length (angle : ℝ) (n : Nat) (c : List V3) :
    (turned angle n c).length = n * c.length := by
  simp [turned, List.length_flatMap]

theorem torus_on {angle : ℝ} (ha : 0 ≤ angle) (R r : ℝ) (n : Nat) :
    List.Forall₂ (OnTorus angle R r) (turned angle n (circBase R r)) (turned angle n circNorm) := by
  refine forall₂_flatMap _ _ _ fun j _ => ?_
  unfold circBase circNorm
  rw [List.map_map, List.map_map]
  refine forall₂_map _ _ _ fun i _ => ?_
  have h1 := Real.sin_sq_add_cos_sq (theta i)
  have h2 := Real.sin_sq_add_cos_sq (torusPhi angle n j)
  refine ⟨torusPhi angle n j, (torusPhi_range ha n j).1, (torusPhi_range ha n j).2, ?_, ?_, ?_⟩
  · simp only [Function.comp, rot9, angle2rotmat, vdot]
    linear_combination Real.cos (theta i) ^ 2 * h2 + h1
  · simp only [Function.comp, rot9, angle2rotmat, vdot]
    ring
  · simp only [Function.comp, rot9, angle2rotmat, vadd, vscal, V3.mk.injEq]
    refine ⟨?_, ?_, ?_⟩ <;> ring

theorem nMajor_some {angle : ℝ} (ha : 0 ≤ angle) (hb : angle / (Real.pi * 2 / 72) < 2 ^ 32) :
    nMajor angle = some (if ⌊angle / (Real.pi * 2 / 72)⌋₊ < 8 then 8
      else ⌊angle / (Real.pi * 2 / 72)⌋₊) := by
  have := Real.pi_pos
  have h0 : 0 ≤ angle / (Real.pi * 2 / 72) := by positivity
  unfold nMajor
  dsimp only
  rw [if_neg]
  push Not
  exact ⟨by linarith, hb⟩

theorem torusTris_lt {n : Nat} (h : n * 36 ≤ 2 ^ 32) :
    ∀ t ∈ torusTris n, t.1 < n * 36 ∧ t.2.1 < n * 36 ∧ t.2.2 < n * 36 := by
  intro t ht
  simp only [torusTris, List.mem_flatMap, List.mem_range] at ht
  obtain ⟨j, hj, i, hi, ht⟩ := ht
  simp only [List.mem_cons, List.not_mem_nil, or_false] at ht
  have hi36 : i < 36 := hi
  have hk : j * 36 + i < 2 ^ 32 := by omega
  have hk1 : j * 36 + i + 36 < 2 ^ 32 := by omega
  by_cases hi' : i + 1 = sides
  · have : i = 35 := by unfold sides at hi'; omega
    subst this
    rw [if_pos hi'] at ht
    simp only [u32, sides] at ht
    rcases ht with rfl | rfl <;> refine ⟨?_, ?_, ?_⟩ <;> dsimp only <;> omega
  · rw [if_neg hi'] at ht
    simp only [u32, sides] at ht hi'
    rcases ht with rfl | rfl <;> refine ⟨?_, ?_, ?_⟩ <;> dsimp only <;> omega

/-- **C85**, torus. -/
theorem C85_torus (angle R r : ℝ) (ha : 0 ≤ angle) (hb : angle / (Real.pi * 2 / 72) ≤ 10 ^ 8) :
    ∃ m, torus angle R r = some m ∧ Indexed m ∧
      List.Forall₂ (OnTorus angle R r) m.verts m.normals := by
  have hs := nMajor_some ha (hb.trans_lt (by norm_num))
  obtain ⟨n, hn⟩ : ∃ n, n = (if ⌊angle / (Real.pi * 2 / 72)⌋₊ < 8 then 8
      else ⌊angle / (Real.pi * 2 / 72)⌋₊) := ⟨_, rfl⟩
  rw [← hn] at hs
  have hf : ⌊angle / (Real.pi * 2 / 72)⌋₊ ≤ 10 ^ 8 := by
    apply Nat.floor_le_of_le
    exact_mod_cast hb
  have hle : n ≤ 10 ^ 8 := by
    rw [hn]; split
    · norm_num
    · exact hf
  refine ⟨_, by unfold torus; rw [hs], ?_, torus_on ha R r n⟩
  intro t ht
  have hl : (turned angle n (circBase R r)).length = n * 36 := by
    rw [torus_length]; simp [circBase, sides]
  dsimp only
  rw [hl]
  exact torusTris_lt (by omega) t ht

/-! ## Sphere -/

/-- A face whose corners are on the sphere and pairwise at acute angles. -/
structure Face (r : ℝ) (a b c : V3) : Prop where
  ha : vdot a a = r ^ 2
  hb : vdot b b = r ^ 2
  hc : vdot c c = r ^ 2
  ab : 0 < vdot a b
  ac : 0 < vdot a c
  bc : 0 < vdot b c

/-- The middle of two points, once it is known to exist. -/
noncomputable def midV (r : ℝ) (v w : V3) : V3 :=
  vscal (r / vnorm (vadd v w)) (vadd v w)

theorem vadd_sq (v w : V3) : vdot (vadd v w) (vadd v w) = vdot v v + vdot w w + 2 * vdot v w := by
  simp only [vdot, vadd]; ring

theorem mid_eq {r : ℝ} {v w : V3} (h : 0 < vdot (vadd v w) (vadd v w)) :
    mid r v w = some (midV r v w) := by
  obtain ⟨N, hN⟩ : ∃ N, N = vnorm (vadd v w) := ⟨_, rfl⟩
  have hp : 0 < N := by rw [hN]; exact Real.sqrt_pos.2 h
  have hs : Real.sqrt ((v.x + w.x) / 2 * ((v.x + w.x) / 2) + (v.y + w.y) / 2 * ((v.y + w.y) / 2) +
      (v.z + w.z) / 2 * ((v.z + w.z) / 2)) = N / 2 := by
    have h0 : 0 ≤ (v.x + w.x) / 2 * ((v.x + w.x) / 2) + (v.y + w.y) / 2 * ((v.y + w.y) / 2) +
        (v.z + w.z) / 2 * ((v.z + w.z) / 2) :=
      add_nonneg (add_nonneg (mul_self_nonneg _) (mul_self_nonneg _)) (mul_self_nonneg _)
    rw [Real.sqrt_eq_iff_mul_self_eq h0 (by positivity)]
    have : N * N = vdot (vadd v w) (vadd v w) := by
      rw [hN]; exact Real.mul_self_sqrt h.le
    simp only [vdot, vadd] at this
    linear_combination -this / 4
  unfold mid midV
  dsimp only
  rw [hs, if_neg (by positivity), ← hN]
  simp only [vscal, vadd, Option.some.injEq, V3.mk.injEq]
  refine ⟨?_, ?_, ?_⟩ <;> field_simp

theorem midV_sq {r : ℝ} {v w : V3} (h : 0 < vdot (vadd v w) (vadd v w)) :
    vdot (midV r v w) (midV r v w) = r ^ 2 := by
  have hp : 0 < vnorm (vadd v w) := Real.sqrt_pos.2 h
  have hN : vnorm (vadd v w) * vnorm (vadd v w) = vdot (vadd v w) (vadd v w) :=
    Real.mul_self_sqrt h.le
  have : vdot (midV r v w) (midV r v w) = (r / vnorm (vadd v w)) ^ 2 *
      vdot (vadd v w) (vadd v w) := by
    simp only [midV, vdot, vscal]; ring
  rw [this, ← hN]
  field_simp

theorem vdot_comm' (a b : V3) : vdot a b = vdot b a := by simp only [vdot]; ring

theorem vadd_comm' (a b : V3) : vadd a b = vadd b a := by
  simp only [vadd, V3.mk.injEq]; exact ⟨add_comm _ _, add_comm _ _, add_comm _ _⟩

theorem midV_comm (r : ℝ) (a b : V3) : midV r a b = midV r b a := by
  unfold midV; rw [vadd_comm']

theorem vdot_midV {r : ℝ} (hr : 0 < r) {u v w : V3} (h : 0 < vdot (vadd v w) (vadd v w))
    (hp : 0 < vdot u v + vdot u w) : 0 < vdot u (midV r v w) := by
  have hN : 0 < vnorm (vadd v w) := Real.sqrt_pos.2 h
  have : vdot u (midV r v w) = r / vnorm (vadd v w) * (vdot u v + vdot u w) := by
    simp only [midV, vdot, vscal, vadd]; ring
  rw [this]
  positivity

theorem Face.sums {r : ℝ} (hr : 0 < r) {a b c : V3} (h : Face r a b c) :
    0 < vdot (vadd a b) (vadd a b) ∧ 0 < vdot (vadd a c) (vadd a c) ∧
      0 < vdot (vadd b c) (vadd b c) := by
  have h0 : 0 < r ^ 2 := by positivity
  refine ⟨?_, ?_, ?_⟩ <;> rw [vadd_sq] <;> linarith [h.ha, h.hb, h.hc, h.ab, h.ac, h.bc]

/-- The faces one face is divided into. -/
noncomputable def sub (r : ℝ) (t : V3 × V3 × V3) : List (V3 × V3 × V3) :=
  let ab := midV r t.1 t.2.1
  let ac := midV r t.1 t.2.2
  let bc := midV r t.2.1 t.2.2
  [(t.1, ab, ac), (t.2.1, ab, bc), (t.2.2, ac, bc), (ab, ac, bc)]

theorem sub_face {r : ℝ} (hr : 0 < r) {a b c : V3} (h : Face r a b c) :
    ∀ t ∈ sub r (a, b, c), Face r t.1 t.2.1 t.2.2 := by
  obtain ⟨s1, s2, s3⟩ := h.sums hr
  obtain ⟨ha, hb, hc, hab, hac, hbc⟩ := h
  have h0 : 0 < r ^ 2 := by positivity
  have c1 := vdot_comm' b a
  have c2 := vdot_comm' c a
  have c3 := vdot_comm' c b
  have q1 := midV_sq (r := r) s1
  have q2 := midV_sq (r := r) s2
  have q3 := midV_sq (r := r) s3
  have d : ∀ {u v w x : V3}, 0 < vdot (vadd v w) (vadd v w) → 0 < vdot (vadd u x) (vadd u x) →
      0 < vdot u v + vdot u w → 0 < vdot x v + vdot x w → 0 < vdot (midV r u x) (midV r v w) := by
    intro u v w x hvw hux h1 h2
    apply vdot_midV hr hvw
    rw [vdot_comm' _ v, vdot_comm' _ w]
    have e1 := vdot_midV hr (u := v) hux
    have e2 := vdot_midV hr (u := w) hux
    have hN : 0 < vnorm (vadd u x) := Real.sqrt_pos.2 hux
    have : vdot v (midV r u x) + vdot w (midV r u x) = r / vnorm (vadd u x) *
        ((vdot u v + vdot u w) + (vdot x v + vdot x w)) := by
      simp only [midV, vdot, vscal, vadd]; ring
    rw [this]
    positivity
  have m12 : 0 < vdot (midV r a b) (midV r a c) := d s2 s1 (by linarith) (by linarith)
  have m13 : 0 < vdot (midV r a b) (midV r b c) := d s3 s1 (by linarith) (by linarith)
  have m23 : 0 < vdot (midV r a c) (midV r b c) := d s3 s2 (by linarith) (by linarith)
  intro t ht
  simp only [sub, List.mem_cons, List.not_mem_nil, or_false] at ht
  rcases ht with rfl | rfl | rfl | rfl
  · exact ⟨ha, q1, q2, vdot_midV hr s1 (by linarith), vdot_midV hr s2 (by linarith), m12⟩
  · exact ⟨hb, q1, q3, vdot_midV hr s1 (by linarith), vdot_midV hr s3 (by linarith), m13⟩
  · exact ⟨hc, q2, q3, vdot_midV hr s2 (by linarith), vdot_midV hr s3 (by linarith), m23⟩
  · exact ⟨q1, q2, q3, m12, m13, m23⟩

/-- The corners of a triangle. -/
def corners (V : List V3) (t : Nat × Nat × Nat) : Option (V3 × V3 × V3) :=
  match V[t.1]?, V[t.2.1]?, V[t.2.2]? with
  | some a, some b, some c => some (a, b, c)
  | _, _, _ => none

theorem corners_append {V : List V3} {t : Nat × Nat × Nat} {x : V3 × V3 × V3}
    (h : corners V t = some x) (W : List V3) : corners (V ++ W) t = some x := by
  have key : ∀ {k : Nat} {a : V3}, V[k]? = some a → (V ++ W)[k]? = some a := by
    intro k a hk
    rw [List.getElem?_append_left (List.getElem?_eq_some_iff.1 hk).1, hk]
  unfold corners at *
  cases h1 : V[t.1]? with
  | none => rw [h1] at h; cases h
  | some a =>
    cases h2 : V[t.2.1]? with
    | none => rw [h1, h2] at h; cases h
    | some b =>
      cases h3 : V[t.2.2]? with
      | none => rw [h1, h2, h3] at h; cases h
      | some c =>
        rw [h1, h2, h3] at h
        rw [key h1, key h2, key h3]
        exact h

theorem corners_eq {V : List V3} {t : Nat × Nat × Nat} {a b c : V3} (h : corners V t = some (a, b, c)) :
    V[t.1]? = some a ∧ V[t.2.1]? = some b ∧ V[t.2.2]? = some c := by
  unfold corners at h
  cases h1 : V[t.1]? with
  | none => rw [h1] at h; cases h
  | some a =>
    cases h2 : V[t.2.1]? with
    | none => rw [h1, h2] at h; cases h
    | some b =>
      cases h3 : V[t.2.2]? with
      | none => rw [h1, h2, h3] at h; cases h
      | some c =>
        rw [h1, h2, h3] at h
        cases h
        exact ⟨rfl, rfl, rfl⟩

/-- Triangles and their corners. -/
def Pos (V : List V3) (fs : List (Nat × Nat × Nat)) (ts : List (V3 × V3 × V3)) : Prop :=
  List.Forall₂ (fun f t => corners V f = some t) fs ts

theorem Pos.append {V : List V3} {fs : List (Nat × Nat × Nat)} {ts : List (V3 × V3 × V3)}
    (h : Pos V fs ts) (W : List V3) : Pos (V ++ W) fs ts :=
  List.Forall₂.imp (fun _ _ h => corners_append h W) h

theorem geodesicFace_eq {r : ℝ} (hr : 0 < r) {V : List V3} {f : Nat × Nat × Nat} {a b c : V3}
    (hc : corners V f = some (a, b, c)) (h : Face r a b c) :
    ∃ new, geodesicFace r V f = some (V ++ [midV r a b, midV r a c, midV r b c], new) ∧
      new.length = 4 ∧ Pos (V ++ [midV r a b, midV r a c, midV r b c]) new (sub r (a, b, c)) := by
  obtain ⟨h1, h2, h3⟩ := corners_eq hc
  obtain ⟨s1, s2, s3⟩ := h.sums hr
  obtain ⟨W, hW⟩ : ∃ W, W = [midV r a b, midV r a c, midV r b c] := ⟨_, rfl⟩
  have old : ∀ {k : Nat} {a : V3}, V[k]? = some a → (V ++ W)[k]? = some a := by
    intro k a hk
    rw [List.getElem?_append_left (List.getElem?_eq_some_iff.1 hk).1, hk]
  have n0 : (V ++ W)[V.length]? = some (midV r a b) := by simp [hW]
  have n1 : (V ++ W)[V.length + 1]? = some (midV r a c) := by
    rw [List.getElem?_append_right (by omega)]; simp [hW]
  have n2 : (V ++ W)[V.length + 1 + 1]? = some (midV r b c) := by
    rw [List.getElem?_append_right (by omega), show V.length + 1 + 1 - V.length = 2 by omega]
    simp [hW]
  refine ⟨[(f.1, V.length, V.length + 1), (f.2.1, V.length, V.length + 1 + 1),
    (f.2.2, V.length + 1, V.length + 1 + 1), (V.length, V.length + 1, V.length + 1 + 1)], ?_, rfl, ?_⟩
  · unfold geodesicFace
    rw [h1, h2, h3]
    dsimp only
    rw [mid_eq s1, mid_eq s2, mid_eq s3]
    simp [List.append_assoc]
  · rw [← hW]
    unfold Pos sub
    refine List.Forall₂.cons ?_ (List.Forall₂.cons ?_ (List.Forall₂.cons ?_ (List.Forall₂.cons ?_
      List.Forall₂.nil))) <;> unfold corners <;> dsimp only
    · rw [old h1, n0, n1]
    · rw [old h2, n0, n2]
    · rw [old h3, n1, n2]
    · rw [n0, n1, n2]

theorem geodesicRound_eq {r : ℝ} (hr : 0 < r) (fs : List (Nat × Nat × Nat)) :
    ∀ (V : List V3) (ts : List (V3 × V3 × V3)), Pos V fs ts →
      (∀ t ∈ ts, Face r t.1 t.2.1 t.2.2) →
      ∃ W new, geodesicRound r V fs = some (V ++ W, new) ∧ (∀ w ∈ W, vdot w w = r ^ 2) ∧
        W.length = 3 * fs.length ∧ new.length = 4 * fs.length ∧
        Pos (V ++ W) new (ts.flatMap (sub r)) := by
  induction fs with
  | nil =>
    intro V ts hp _
    cases hp
    exact ⟨[], [], by simp [geodesicRound], by simp, rfl, rfl, List.Forall₂.nil⟩
  | cons f fs ih =>
    intro V ts hp hf
    cases hp with
    | @cons _ t _ ts h1 h2 =>
      obtain ⟨a, b, c⟩ := t
      have hF := hf _ List.mem_cons_self
      obtain ⟨n1, e1, e2, e3⟩ := geodesicFace_eq hr h1 hF
      obtain ⟨W, n2, k1, k2, k3, k4, k5⟩ := ih _ ts (Pos.append h2 [midV r a b, midV r a c, midV r b c])
        (fun t ht => hf t (List.mem_cons_of_mem _ ht))
      obtain ⟨s1, s2, s3⟩ := hF.sums hr
      refine ⟨[midV r a b, midV r a c, midV r b c] ++ W, n1 ++ n2, ?_, ?_, ?_, ?_, ?_⟩
      · unfold geodesicRound
        rw [e1]
        dsimp only
        rw [k1]
        simp [List.append_assoc]
      · intro w hw
        rcases List.mem_append.1 hw with hw | hw
        · simp only [List.mem_cons, List.not_mem_nil, or_false] at hw
          rcases hw with rfl | rfl | rfl
          · exact midV_sq s1
          · exact midV_sq s2
          · exact midV_sq s3
        · exact k2 w hw
      · simp only [List.length_append, List.length_cons, List.length_nil, k3]; omega
      · simp only [List.length_append, List.length_cons, e2, k4]; omega
      · rw [List.flatMap_cons, ← List.append_assoc]
        exact List.rel_append (Pos.append e3 W) k5

/-- The triangles after a number of rounds. -/
noncomputable def subs (r : ℝ) : Nat → List (V3 × V3 × V3) → List (V3 × V3 × V3)
  | 0, ts => ts
  | n + 1, ts => subs r n (ts.flatMap (sub r))

theorem geodesic_eq {r : ℝ} (hr : 0 < r) (n : Nat) :
    ∀ (V : List V3) (fs : List (Nat × Nat × Nat)) (ts : List (V3 × V3 × V3)), Pos V fs ts →
      (∀ t ∈ ts, Face r t.1 t.2.1 t.2.2) → (∀ v ∈ V, vdot v v = r ^ 2) →
      ∃ V' fs', geodesic r n V fs = some (V', fs') ∧ (∀ v ∈ V', vdot v v = r ^ 2) ∧
        fs'.length = 4 ^ n * fs.length ∧ V'.length + fs.length = V.length + fs'.length ∧
        Pos V' fs' (subs r n ts) := by
  induction n with
  | zero => intro V fs ts hp _ hv; exact ⟨V, fs, rfl, hv, by simp, rfl, hp⟩
  | succ n ih =>
    intro V fs ts hp hf hv
    obtain ⟨W, new, e1, e2, e3, e4, e5⟩ := geodesicRound_eq hr fs V ts hp hf
    have hf' : ∀ t ∈ ts.flatMap (sub r), Face r t.1 t.2.1 t.2.2 := by
      intro t ht
      obtain ⟨t0, h0, h1⟩ := List.mem_flatMap.1 ht
      exact sub_face hr (hf t0 h0) t h1
    obtain ⟨V', fs', k1, k2, k3, k4, k5⟩ := ih _ _ _ e5 hf' (by
      intro v h
      rcases List.mem_append.1 h with h | h
      · exact hv v h
      · exact e2 v h)
    refine ⟨V', fs', ?_, k2, ?_, ?_, k5⟩
    · unfold geodesic; rw [e1]; exact k1
    · rw [k3, e4]; ring
    · rw [List.length_append] at k4; omega

/-- The numbers of the icosahedron. -/
theorem ico_numbers {r : ℝ} (hr : 0 < r) : ∃ p q : ℝ, 0 < p ∧ p < q ∧ p * p + q * q = r ^ 2 ∧
    icoVerts r = [⟨0, q, p⟩, ⟨0, q, -p⟩, ⟨0, -q, p⟩, ⟨0, -q, -p⟩,
      ⟨p, 0, q⟩, ⟨p, 0, -q⟩, ⟨-p, 0, q⟩, ⟨-p, 0, -q⟩,
      ⟨q, p, 0⟩, ⟨q, -p, 0⟩, ⟨-q, p, 0⟩, ⟨-q, -p, 0⟩] := by
  have h5 : 1 < Real.sqrt 5 := by
    rw [show (1 : ℝ) = Real.sqrt 1 by simp]
    exact Real.sqrt_lt_sqrt (by norm_num) (by norm_num)
  obtain ⟨phi, hphi⟩ : ∃ phi, phi = (1 + Real.sqrt 5) / 2 := ⟨_, rfl⟩
  have h1 : 1 < phi := by rw [hphi]; linarith
  have hs : 0 < 1 + phi * phi := by positivity
  have hq := Real.sqrt_pos.2 hs
  have hm := Real.mul_self_sqrt hs.le
  obtain ⟨s, hs'⟩ : ∃ s, s = Real.sqrt (1 + phi * phi) := ⟨_, rfl⟩
  rw [← hs'] at hq hm
  refine ⟨r / s, phi * (r / s), by positivity, ?_, ?_, ?_⟩
  · have : 0 < r / s := by positivity
    nlinarith
  · have : r / s * (r / s) + phi * (r / s) * (phi * (r / s)) = r ^ 2 * ((1 + phi * phi) / (s * s)) := by
      field_simp
    rw [this, hm, div_self hs.ne', mul_one]
  · unfold icoVerts; dsimp only; rw [← hphi, ← hs']

/-- The faces of the icosahedron by their corners. -/
theorem ico_pos {r : ℝ} (hr : 0 < r) : ∃ ts, Pos (icoVerts r) icoFaces ts ∧
    (∀ t ∈ ts, Face r t.1 t.2.1 t.2.2) ∧ ∀ v ∈ icoVerts r, vdot v v = r ^ 2 := by
  obtain ⟨p, q, h0, h1, h2, h3⟩ := ico_numbers hr
  rw [h3]
  have hpq : 0 < p * q := mul_pos h0 (h0.trans h1)
  have hqp : 0 < q * q - p * p := by nlinarith
  refine ⟨icoFaces.map fun f => ((icoVerts r)[f.1]?.getD ⟨0, 0, 0⟩, (icoVerts r)[f.2.1]?.getD ⟨0, 0, 0⟩,
    (icoVerts r)[f.2.2]?.getD ⟨0, 0, 0⟩), ?_, ?_, ?_⟩
  · rw [h3]
    unfold Pos icoFaces
    simp [corners]
  · rw [h3]
    intro t ht
    simp only [icoFaces, List.map_cons, List.map_nil, List.mem_cons, List.not_mem_nil, or_false] at ht
    rcases ht with rfl | rfl | rfl | rfl | rfl | rfl | rfl | rfl | rfl | rfl | rfl | rfl | rfl | rfl |
      rfl | rfl | rfl | rfl | rfl | rfl <;>
      (constructor <;> simp [vdot] <;> linarith)
  · intro v hv
    simp only [List.mem_cons, List.not_mem_nil, or_false] at hv
    rcases hv with rfl | rfl | rfl | rfl | rfl | rfl | rfl | rfl | rfl | rfl | rfl | rfl <;>
      simp [vdot] <;> linarith

theorem pos_lt {V : List V3} {fs : List (Nat × Nat × Nat)} {ts : List (V3 × V3 × V3)} (h : Pos V fs ts) :
    ∀ t ∈ fs, t.1 < V.length ∧ t.2.1 < V.length ∧ t.2.2 < V.length := by
  induction h with
  | nil => intro t ht; cases ht
  | @cons f t _ _ h1 _ ih =>
    intro x hx
    rcases List.mem_cons.1 hx with rfl | hx
    · obtain ⟨a, b, c⟩ := t
      obtain ⟨k1, k2, k3⟩ := corners_eq h1
      exact ⟨(List.getElem?_eq_some_iff.1 k1).1, (List.getElem?_eq_some_iff.1 k2).1,
        (List.getElem?_eq_some_iff.1 k3).1⟩
    · exact ih x hx

/-- **C85**, sphere: 1280 faces with 1272 vertices; no division by zero occurs. -/
theorem C85_sphere (r : ℝ) (hr : 0 < r) :
    ∃ m, sphere r = some m ∧ m.tris.length = 1280 ∧ m.verts.length = 1272 ∧ Indexed m ∧
      List.Forall₂ (Outward (Ball r)) m.verts m.normals := by
  obtain ⟨ts, h1, h2, h3⟩ := ico_pos hr
  obtain ⟨V, fs, e1, e2, e3, e4, e5⟩ := geodesic_eq hr 3 _ _ ts h1 h2 h3
  refine ⟨_, by unfold sphere; rw [e1]; dsimp only; rw [if_neg hr.ne'], ?_, ?_, pos_lt e5, ?_⟩
  · rw [e3]; rfl
  · have : (icoVerts r).length = 12 := rfl
    have h20 : icoFaces.length = 20 := rfl
    rw [h20] at e3 e4
    dsimp only
    omega
  · have := forall₂_map (R := Outward (Ball r)) V id (fun v => ⟨v.x / r, v.y / r, v.z / r⟩) ?_
    · simpa using this
    · intro v hv
      have hv := e2 v hv
      refine ⟨hv.le, ?_, ?_⟩
      · simp only [vdot] at *
        field_simp
        linarith
      · intro q hq
        simp only [Ball, vdot] at *
        have e : ∀ a b c : ℝ, v.x / r * a + v.y / r * b + v.z / r * c = (v.x * a + v.y * b + v.z * c) / r :=
          fun a b c => by ring
        simp only [id]
        rw [e, e]
        apply div_le_div_of_nonneg_right _ hr.le
        nlinarith [sq_nonneg (v.x - q.x), sq_nonneg (v.y - q.y), sq_nonneg (v.z - q.z)]

/-! ## Cases -/

example : Indexed (box ⟨1, 2, 3⟩) := (C85_box ⟨1, 2, 3⟩ (by norm_num) (by norm_num) (by norm_num)).1

example : (cylinder 2 1).tris.length = 144 := by
  simp [cylinder, coneCylinder, coneSideTris, coneEndTris, sides]

/-- A quarter of a torus. -/
example : ∃ m, torus (Real.pi / 2) 2 1 = some m ∧ m.verts.length = 648 := by
  have h : Real.pi / 2 / (Real.pi * 2 / 72) = (18 : ℕ) := by
    have := Real.pi_pos
    push_cast
    field_simp
    norm_num
  refine ⟨_, by unfold torus; rw [nMajor_some (by positivity) (by rw [h]; norm_num)], ?_⟩
  dsimp only
  rw [torus_length, h, Nat.floor_natCast]
  simp [circBase, sides]

end Verif.GlMesh
