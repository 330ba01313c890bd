import Verif.Prop.GlMesh

/-!
# C86: the meshes of boxes and grids cover exactly what they stand for
-/

namespace Verif.GlMesh

open Verif.Tf

/-! ## Specification -/

/-- A point of a triangle. -/
def InTri (a b c q : V3) : Prop :=
  ∃ s t u : ℝ, 0 ≤ s ∧ 0 ≤ t ∧ 0 ≤ u ∧ s + t + u = 1 ∧
    q = vadd (vscal s a) (vadd (vscal t b) (vscal u c))

/-- A point covered by a triangle of the mesh. -/
def Drawn (m : Mesh) (q : V3) : Prop :=
  ∃ t ∈ m.tris, ∃ a b c, m.verts[t.1]? = some a ∧ m.verts[t.2.1]? = some b ∧
    m.verts[t.2.2]? = some c ∧ InTri a b c q

/-- The surface of a box. -/
def BoxSurface (dim : V3) (q : V3) : Prop :=
  Box dim q ∧ (|q.x| = dim.x / 2 ∨ |q.y| = dim.y / 2 ∨ |q.z| = dim.z / 2)

/-- The lines of a grid: strips of the given width around the lines at integer multiples of the
spacing within the dimension, that end at the outermost lines across. -/
def Lines (dim0 dim1 delta0 delta1 width : ℝ) (q : V3) : Prop :=
  q.z = 0 ∧
  ((∃ i : ℤ, |i * delta0| ≤ dim0 ∧ |q.x - i * delta0| ≤ width / 2 ∧
      ∃ k : ℕ, k * delta1 ≤ dim1 ∧ |q.y| ≤ k * delta1) ∨
   (∃ i : ℤ, |i * delta1| ≤ dim1 ∧ |q.y - i * delta1| ≤ width / 2 ∧
      ∃ k : ℕ, k * delta0 ≤ dim0 ∧ |q.x| ≤ k * delta0))

/-! ## Triangles and parallelograms -/

theorem drawn_iff {m : Mesh} {ts : List (V3 × V3 × V3)} (h : Pos m.verts m.tris ts) (q : V3) :
    Drawn m q ↔ ∃ t ∈ ts, InTri t.1 t.2.1 t.2.2 q := by
  obtain ⟨V, N, fs⟩ := m
  unfold Drawn
  dsimp only at *
  induction h with
  | nil => simp
  | @cons f t fs ts h1 _ ih =>
    obtain ⟨a, b, c⟩ := t
    obtain ⟨k1, k2, k3⟩ := corners_eq h1
    simp only [List.mem_cons, exists_eq_or_imp, ih, k1, k2, k3, Option.some.injEq]
    refine or_congr ?_ Iff.rfl
    constructor
    · rintro ⟨a, b, c, rfl, rfl, rfl, h⟩; exact h
    · intro h; exact ⟨a, b, c, rfl, rfl, rfl, h⟩

/-- A point of a parallelogram. -/
def InPara (o a b q : V3) : Prop :=
  ∃ s t : ℝ, 0 ≤ s ∧ s ≤ 1 ∧ 0 ≤ t ∧ t ≤ 1 ∧
    q = vadd o (vadd (vscal s (vadd a (vneg o))) (vscal t (vadd b (vneg o))))

/-- The two triangles on a diagonal make up the parallelogram. -/
theorem para {o a b c : V3} (hc : c = vadd a (vadd b (vneg o))) (q : V3) :
    (InTri o a c q ∨ InTri o b c q) ↔ InPara o a b q := by
  subst hc
  obtain ⟨o0, o1, o2⟩ := o
  obtain ⟨a0, a1, a2⟩ := a
  obtain ⟨b0, b1, b2⟩ := b
  obtain ⟨x, y, z⟩ := q
  simp only [InTri, InPara, vadd, vscal, vneg, V3.mk.injEq]
  constructor
  · rintro (⟨s, t, u, hs, ht, hu, h1, rfl, rfl, rfl⟩ | ⟨s, t, u, hs, ht, hu, h1, rfl, rfl, rfl⟩)
    · refine ⟨t + u, u, by linarith, by linarith, hu, by linarith, ?_, ?_, ?_⟩ <;>
        · obtain rfl : s = 1 - t - u := by linarith
          ring
    · refine ⟨u, t + u, hu, by linarith, by linarith, by linarith, ?_, ?_, ?_⟩ <;>
        · obtain rfl : s = 1 - t - u := by linarith
          ring
  · rintro ⟨s, t, hs, hs1, ht, ht1, rfl, rfl, rfl⟩
    rcases le_total t s with h | h
    · left
      refine ⟨1 - s, s - t, t, by linarith, by linarith, ht, by ring, ?_, ?_, ?_⟩ <;> ring
    · right
      refine ⟨1 - t, t - s, s, by linarith, by linarith, hs, by ring, ?_, ?_, ?_⟩ <;> ring

/-- Swapping the last two corners. -/
theorem InTri.swap {a b c q : V3} : InTri a b c q ↔ InTri a c b q := by
  constructor <;>
  · rintro ⟨s, t, u, hs, ht, hu, h1, rfl⟩
    refine ⟨s, u, t, hs, hu, ht, by linarith, ?_⟩
    simp only [vadd, V3.mk.injEq]
    refine ⟨?_, ?_, ?_⟩ <;> ring

/-- A coordinate along an edge. -/
theorem edge {c w x : ℝ} (hw : 0 ≤ w) :
    |x - c| ≤ w ↔ ∃ s, 0 ≤ s ∧ s ≤ 1 ∧ x = c + w + s * (c - w - (c + w)) := by
  rw [abs_le]
  constructor
  · rintro ⟨h1, h2⟩
    rcases hw.eq_or_lt with rfl | hw
    · exact ⟨0, le_rfl, zero_le_one, by linarith⟩
    · refine ⟨(c + w - x) / (2 * w), by apply div_nonneg <;> linarith, ?_, ?_⟩
      · rw [div_le_one (by linarith)]; linarith
      · field_simp; ring
  · rintro ⟨s, h0, h1, rfl⟩
    constructor <;> nlinarith

theorem edge' {w x : ℝ} (hw : 0 ≤ w) :
    |x| ≤ w ↔ ∃ s, 0 ≤ s ∧ s ≤ 1 ∧ x = -w + s * (w - -w) := by
  rw [abs_le]
  constructor
  · rintro ⟨h1, h2⟩
    rcases hw.eq_or_lt with rfl | hw
    · exact ⟨0, le_rfl, zero_le_one, by linarith⟩
    · refine ⟨(x + w) / (2 * w), by apply div_nonneg <;> linarith, ?_, ?_⟩
      · rw [div_le_one (by linarith)]; linarith
      · field_simp; ring
  · rintro ⟨s, h0, h1, rfl⟩
    constructor <;> nlinarith

/-! ## Grid -/

/-- The triangles of four corners in the order of the grid. -/
def quadTris (x : ℝ × ℝ × ℝ × ℝ) : List (V3 × V3 × V3) :=
  [(⟨x.1, x.2.2.1, 0⟩, ⟨x.1, x.2.2.2, 0⟩, ⟨x.2.1, x.2.2.2, 0⟩),
   (⟨x.1, x.2.2.1, 0⟩, ⟨x.2.1, x.2.2.2, 0⟩, ⟨x.2.1, x.2.2.1, 0⟩)]

def quadOf (x : ℝ × ℝ × ℝ × ℝ) : List V3 := quad x.1 x.2.1 x.2.2.1 x.2.2.2

theorem grid_pos (qs : List (ℝ × ℝ × ℝ × ℝ)) : ∀ P : List V3,
    Pos (P ++ qs.flatMap quadOf) (gridTris P.length qs.length) (qs.flatMap quadTris) := by
  induction qs with
  | nil => intro P; exact List.Forall₂.nil
  | cons x qs ih =>
    intro P
    have h := ih (P ++ quadOf x)
    rw [List.append_assoc, List.length_append] at h
    rw [List.flatMap_cons, List.flatMap_cons, List.length_cons, gridTris]
    have g : ∀ k a, (quadOf x)[k]? = some a →
        (P ++ (quadOf x ++ qs.flatMap quadOf))[P.length + k]? = some a := by
      intro k a hk
      rw [List.getElem?_append_right (by omega), show P.length + k - P.length = k by omega,
        List.getElem?_append_left (List.getElem?_eq_some_iff.1 hk).1, hk]
    have g0 := g 0 _ rfl
    have g1 := g 1 _ rfl
    have g2 := g 2 _ rfl
    have g3 := g 3 _ rfl
    refine List.Forall₂.cons ?_ (List.Forall₂.cons ?_ h)
    · unfold corners; dsimp only; rw [Nat.add_zero] at g0; rw [g0, g1, g2]
    · unfold corners; dsimp only; rw [Nat.add_zero] at g0; rw [g0, g2, g3]

theorem quad_cover (x0 x1 y0 y1 : ℝ) (q : V3) :
    (∃ t ∈ quadTris (x0, x1, y0, y1), InTri t.1 t.2.1 t.2.2 q) ↔
      q.z = 0 ∧ (∃ t, 0 ≤ t ∧ t ≤ 1 ∧ q.x = x0 + t * (x1 - x0)) ∧
        ∃ s, 0 ≤ s ∧ s ≤ 1 ∧ q.y = y0 + s * (y1 - y0) := by
  have : (∃ t ∈ quadTris (x0, x1, y0, y1), InTri t.1 t.2.1 t.2.2 q) ↔
      (InTri ⟨x0, y0, 0⟩ ⟨x0, y1, 0⟩ ⟨x1, y1, 0⟩ q ∨ InTri ⟨x0, y0, 0⟩ ⟨x1, y0, 0⟩ ⟨x1, y1, 0⟩ q) := by
    rw [InTri.swap (b := ⟨x1, y0, 0⟩)]
    simp [quadTris]
  rw [this, para (by simp [vadd, vneg])]
  obtain ⟨x, y, z⟩ := q
  simp only [InPara, vadd, vscal, vneg, V3.mk.injEq]
  constructor
  · rintro ⟨s, t, hs, hs1, ht, ht1, rfl, rfl, rfl⟩
    exact ⟨by ring, ⟨t, ht, ht1, by ring⟩, s, hs, hs1, by ring⟩
  · rintro ⟨rfl, ⟨t, ht, ht1, rfl⟩, s, hs, hs1, rfl⟩
    exact ⟨s, t, hs, hs1, ht, ht1, by ring, by ring, by ring⟩

/-- The lines across one axis by their nominal coordinates. -/
noncomputable def noms (n : Nat) (d : ℝ) : List ℝ :=
  (List.range 2).flatMap fun k => (List.range' k (n - k)).map fun (i : Nat) => sg k * i * d

theorem mem_noms (n : Nat) (d c : ℝ) : c ∈ noms (n + 1) d ↔ ∃ i : ℤ, |i| ≤ n ∧ c = i * d := by
  simp only [noms, List.mem_flatMap, List.mem_range, List.mem_map, List.mem_range']
  constructor
  · rintro ⟨k, hk, i, ⟨j, hj, rfl⟩, rfl⟩
    have : k = 0 ∨ k = 1 := by omega
    rcases this with rfl | rfl
    · refine ⟨(j : ℤ), by rw [abs_of_nonneg (by positivity)]; omega, by simp [sg]⟩
    · refine ⟨-((1 + j : ℕ) : ℤ), by rw [abs_neg, abs_of_nonneg (by positivity)]; omega, ?_⟩
      simp [sg]
  · rintro ⟨i, hi, rfl⟩
    rcases le_or_gt 0 i with h | h
    · obtain ⟨j, rfl⟩ := Int.eq_ofNat_of_zero_le h
      rw [abs_of_nonneg h] at hi
      exact ⟨0, by norm_num, j, ⟨j, by omega, by omega⟩, by simp [sg]⟩
    · obtain ⟨j, hj⟩ := Int.eq_ofNat_of_zero_le (a := -i - 1) (by omega)
      obtain rfl : i = -((1 + j : ℕ) : ℤ) := by push_cast; omega
      rw [abs_neg, abs_of_nonneg (by positivity)] at hi
      exact ⟨1, by norm_num, 1 + j, ⟨j, by omega, by omega⟩, by simp [sg]⟩

theorem noms_length (n : Nat) (d : ℝ) : (noms (n + 1) d).length = (n + 1) + n := by
  simp [noms, List.range, List.range.loop]

theorem gridX_eq (nx : Nat) (dx w ymax : ℝ) : gridX nx dx w ymax =
    ((noms nx dx).map fun c => (c + w, c - w, -ymax, ymax)).flatMap quadOf := by
  simp [gridX, noms, List.range, List.range.loop, List.flatMap_map, List.map_map, Function.comp_def,
    quadOf]

theorem gridY_eq (ny : Nat) (dy w xmax : ℝ) : gridY ny dy w xmax =
    ((noms ny dy).map fun c => (-xmax, xmax, c + w, c - w)).flatMap quadOf := by
  simp [gridY, noms, List.range, List.range.loop, List.flatMap_map, List.map_map, Function.comp_def,
    quadOf]

theorem quot_some {d delta : ℝ} (hd : 0 ≤ d) (h : 0 < delta) :
    quot d delta = some ⌊d / delta⌋₊ := by
  have : 0 ≤ d / delta := by positivity
  unfold quot
  rw [if_neg]
  push Not
  exact ⟨h.ne', by linarith⟩

theorem mult_le {d delta : ℝ} (hd : 0 ≤ d) (h : 0 < delta) (k : ℕ) :
    k * delta ≤ d ↔ k ≤ ⌊d / delta⌋₊ := by
  rw [Nat.le_floor_iff (by positivity), le_div_iff₀ h]

theorem abs_mult_le {d delta : ℝ} (hd : 0 ≤ d) (h : 0 < delta) (i : ℤ) :
    |i * delta| ≤ d ↔ |i| ≤ (⌊d / delta⌋₊ : ℤ) := by
  have : |(i : ℝ) * delta| = (i.natAbs : ℝ) * delta := by
    rw [abs_mul, abs_of_pos h, Nat.cast_natAbs, Int.cast_abs]
  rw [this, mult_le hd h, ← Int.natCast_natAbs]
  exact_mod_cast Iff.rfl

theorem extent {d delta : ℝ} (hd : 0 ≤ d) (h : 0 < delta) (y : ℝ) :
    (∃ k : ℕ, k * delta ≤ d ∧ |y| ≤ k * delta) ↔ |y| ≤ ⌊d / delta⌋₊ * delta := by
  constructor
  · rintro ⟨k, h1, h2⟩
    rw [mult_le hd h] at h1
    have : (k : ℝ) ≤ ⌊d / delta⌋₊ := by exact_mod_cast h1
    nlinarith
  · intro hy
    exact ⟨_, (mult_le hd h _).2 le_rfl, hy⟩

/-- **C86**, grid: the arrays have the sizes reserved for them, all indices refer to vertices, and the
triangles cover exactly the lines. -/
theorem C86_grid (dim0 dim1 delta0 delta1 width : ℝ) (h0 : 0 ≤ dim0) (h1 : 0 ≤ dim1)
    (hd0 : 0 < delta0) (hd1 : 0 < delta1) (hw : 0 ≤ width) :
    ∃ m, grid dim0 dim1 delta0 delta1 width = some m ∧ Indexed m ∧
      m.verts.length = gridVert (⌊dim0 / delta0⌋₊ + 1) (⌊dim1 / delta1⌋₊ + 1) ∧
      3 * m.tris.length ≤ 2 * gridVert (⌊dim0 / delta0⌋₊ + 1) (⌊dim1 / delta1⌋₊ + 1) ∧
      ∀ q, Drawn m q ↔ Lines dim0 dim1 delta0 delta1 width q := by
  obtain ⟨a, ha⟩ : ∃ a, a = ⌊dim0 / delta0⌋₊ := ⟨_, rfl⟩
  obtain ⟨b, hb⟩ : ∃ b, b = ⌊dim1 / delta1⌋₊ := ⟨_, rfl⟩
  obtain ⟨qs, hqs⟩ : ∃ qs, qs = ((noms (a + 1) delta0).map fun c =>
      (c + width / 2, c - width / 2, -((b : ℝ) * delta1), (b : ℝ) * delta1)) ++
      ((noms (b + 1) delta1).map fun c =>
        (-((a : ℝ) * delta0), (a : ℝ) * delta0, c + width / 2, c - width / 2)) := ⟨_, rfl⟩
  have hlen : qs.length = (a + 1 + a) + (b + 1 + b) := by
    rw [hqs, List.length_append, List.length_map, List.length_map, noms_length, noms_length]
  have hm : grid dim0 dim1 delta0 delta1 width = some ⟨qs.flatMap quadOf, [], gridTris 0 qs.length⟩ := by
    unfold grid
    rw [quot_some h0 hd0, quot_some h1 hd1, ← ha, ← hb]
    dsimp only
    rw [gridX_eq, gridY_eq, hlen, hqs, List.flatMap_append]
    simp only [Nat.add_sub_cancel]
  have hp := grid_pos qs []
  rw [List.nil_append, List.length_nil] at hp
  have ht : ∀ (n nn : Nat), (gridTris nn n).length = 2 * n := by
    intro n
    induction n with
    | zero => intro nn; rfl
    | succ n ih => intro nn; rw [gridTris, List.length_cons, List.length_cons, ih]; omega
  have hv : ∀ l : List (ℝ × ℝ × ℝ × ℝ), (l.flatMap quadOf).length = 4 * l.length := by
    intro l
    induction l with
    | nil => rfl
    | cons x l ih => rw [List.flatMap_cons, List.length_append, ih, List.length_cons]; simp [quadOf, quad]; omega
  rw [← ha, ← hb]
  refine ⟨_, hm, pos_lt hp, ?_, ?_, ?_⟩
  · dsimp only; rw [hv, hlen, gridVert]; omega
  · dsimp only; rw [ht, hlen, gridVert]; omega
  · intro q
    rw [drawn_iff hp]
    have hA : (0 : ℝ) ≤ a * delta0 := by positivity
    have hB : (0 : ℝ) ≤ b * delta1 := by positivity
    have hW : 0 ≤ width / 2 := by linarith
    have e : (∃ t ∈ qs.flatMap quadTris, InTri t.1 t.2.1 t.2.2 q) ↔
        ∃ x ∈ qs, ∃ t ∈ quadTris x, InTri t.1 t.2.1 t.2.2 q := by
      simp only [List.mem_flatMap]
      constructor
      · rintro ⟨t, ⟨x, h1, h2⟩, h3⟩; exact ⟨x, h1, t, h2, h3⟩
      · rintro ⟨x, h1, t, h2, h3⟩; exact ⟨t, ⟨x, h1, h2⟩, h3⟩
    rw [e, Lines]
    simp only [extent h0 hd0, extent h1 hd1, abs_mult_le h0 hd0, abs_mult_le h1 hd1, ← ha, ← hb]
    rw [hqs]
    simp only [List.mem_append, List.mem_map]
    constructor
    · rintro ⟨x, ⟨c, hc, rfl⟩ | ⟨c, hc, rfl⟩, hq⟩
      · obtain ⟨i, hi, rfl⟩ := (mem_noms _ _ _).1 hc
        rw [quad_cover, ← edge hW, ← edge' hB] at hq
        exact ⟨hq.1, Or.inl ⟨i, hi, hq.2.1, hq.2.2⟩⟩
      · obtain ⟨i, hi, rfl⟩ := (mem_noms _ _ _).1 hc
        rw [quad_cover, ← edge hW, ← edge' hA] at hq
        exact ⟨hq.1, Or.inr ⟨i, hi, hq.2.2, hq.2.1⟩⟩
    · rintro ⟨hz, ⟨i, hi, hx, hy⟩ | ⟨i, hi, hx, hy⟩⟩
      · refine ⟨_, Or.inl ⟨_, (mem_noms _ _ _).2 ⟨i, hi, rfl⟩, rfl⟩, ?_⟩
        rw [quad_cover, ← edge hW, ← edge' hB]
        exact ⟨hz, hx, hy⟩
      · refine ⟨_, Or.inr ⟨_, (mem_noms _ _ _).2 ⟨i, hi, rfl⟩, rfl⟩, ?_⟩
        rw [quad_cover, ← edge hW, ← edge' hA]
        exact ⟨hz, hy, hx⟩

/-! ## Box -/

theorem edge0 {w x : ℝ} (hw : 0 ≤ w) : |x| ≤ w ↔ ∃ s, 0 ≤ s ∧ s ≤ 1 ∧ x = w + s * (-w + -w) := by
  have := edge (c := 0) (x := x) hw
  rw [sub_zero, zero_add] at this
  rw [this]
  simp only [sub_eq_add_neg, zero_add]

theorem para_z {w h : ℝ} (hw : 0 ≤ w) (hh : 0 ≤ h) (z : ℝ) (q : V3) :
    InPara ⟨w, h, z⟩ ⟨w, -h, z⟩ ⟨-w, h, z⟩ q ↔ |q.x| ≤ w ∧ |q.y| ≤ h ∧ q.z = z := by
  obtain ⟨x, y, z'⟩ := q
  simp only [InPara, vadd, vscal, vneg, V3.mk.injEq, edge0 hw, edge0 hh]
  constructor
  · rintro ⟨s, t, hs, hs1, ht, ht1, rfl, rfl, rfl⟩
    exact ⟨⟨t, ht, ht1, by ring⟩, ⟨s, hs, hs1, by ring⟩, by ring⟩
  · rintro ⟨⟨t, ht, ht1, rfl⟩, ⟨s, hs, hs1, rfl⟩, rfl⟩
    exact ⟨s, t, hs, hs1, ht, ht1, by ring, by ring, by ring⟩

theorem para_x {w h : ℝ} (hw : 0 ≤ w) (hh : 0 ≤ h) (x : ℝ) (q : V3) :
    InPara ⟨x, w, h⟩ ⟨x, w, -h⟩ ⟨x, -w, h⟩ q ↔ |q.y| ≤ w ∧ |q.z| ≤ h ∧ q.x = x := by
  obtain ⟨x', y, z⟩ := q
  simp only [InPara, vadd, vscal, vneg, V3.mk.injEq, edge0 hw, edge0 hh]
  constructor
  · rintro ⟨s, t, hs, hs1, ht, ht1, rfl, rfl, rfl⟩
    exact ⟨⟨t, ht, ht1, by ring⟩, ⟨s, hs, hs1, by ring⟩, by ring⟩
  · rintro ⟨⟨t, ht, ht1, rfl⟩, ⟨s, hs, hs1, rfl⟩, rfl⟩
    exact ⟨s, t, hs, hs1, ht, ht1, by ring, by ring, by ring⟩

theorem para_y {w h : ℝ} (hw : 0 ≤ w) (hh : 0 ≤ h) (y : ℝ) (q : V3) :
    InPara ⟨w, y, h⟩ ⟨w, y, -h⟩ ⟨-w, y, h⟩ q ↔ |q.x| ≤ w ∧ |q.z| ≤ h ∧ q.y = y := by
  obtain ⟨x, y', z⟩ := q
  simp only [InPara, vadd, vscal, vneg, V3.mk.injEq, edge0 hw, edge0 hh]
  constructor
  · rintro ⟨s, t, hs, hs1, ht, ht1, rfl, rfl, rfl⟩
    exact ⟨⟨t, ht, ht1, by ring⟩, ⟨s, hs, hs1, by ring⟩, by ring⟩
  · rintro ⟨⟨t, ht, ht1, rfl⟩, ⟨s, hs, hs1, rfl⟩, rfl⟩
    exact ⟨s, t, hs, hs1, ht, ht1, by ring, by ring, by ring⟩

/-- **C86**, box: the triangles cover exactly the surface. -/
theorem C86_box (dim : V3) (hx : 0 ≤ dim.x) (hy : 0 ≤ dim.y) (hz : 0 ≤ dim.z) (q : V3) :
    Drawn (box dim) q ↔ BoxSurface dim q := by
  obtain ⟨X, Y, Z⟩ := dim
  obtain ⟨a, ha⟩ : ∃ a, a = X / 2 := ⟨_, rfl⟩
  obtain ⟨b, hb⟩ : ∃ b, b = Y / 2 := ⟨_, rfl⟩
  obtain ⟨c, hc⟩ : ∃ c, c = Z / 2 := ⟨_, rfl⟩
  dsimp only at hx hy hz
  have a0 : 0 ≤ a := by linarith
  have b0 : 0 ≤ b := by linarith
  have c0 : 0 ≤ c := by linarith
  have hp : Pos (box ⟨X, Y, Z⟩).verts (box ⟨X, Y, Z⟩).tris
      [(⟨a, b, c⟩, ⟨a, -b, c⟩, ⟨-a, -b, c⟩), (⟨a, b, c⟩, ⟨-a, b, c⟩, ⟨-a, -b, c⟩),
       (⟨a, b, -c⟩, ⟨a, -b, -c⟩, ⟨-a, -b, -c⟩), (⟨a, b, -c⟩, ⟨-a, b, -c⟩, ⟨-a, -b, -c⟩),
       (⟨a, b, c⟩, ⟨a, b, -c⟩, ⟨a, -b, -c⟩), (⟨a, b, c⟩, ⟨a, -b, c⟩, ⟨a, -b, -c⟩),
       (⟨-a, b, c⟩, ⟨-a, b, -c⟩, ⟨-a, -b, -c⟩), (⟨-a, b, c⟩, ⟨-a, -b, c⟩, ⟨-a, -b, -c⟩),
       (⟨a, b, c⟩, ⟨a, b, -c⟩, ⟨-a, b, -c⟩), (⟨a, b, c⟩, ⟨-a, b, c⟩, ⟨-a, b, -c⟩),
       (⟨a, -b, c⟩, ⟨a, -b, -c⟩, ⟨-a, -b, -c⟩), (⟨a, -b, c⟩, ⟨-a, -b, c⟩, ⟨-a, -b, -c⟩)] := by
    simp [Pos, box, boxTris, boxCorners, corners, List.range, List.range.loop, sg, ha, hb, hc]
  rw [drawn_iff hp]
  simp only [List.mem_cons, List.not_mem_nil, or_false, exists_eq_or_imp, exists_eq_left]
  rw [← or_assoc, para (by simp [vadd, vneg]), para_z a0 b0,
    ← or_assoc (a := InTri ⟨a, b, -c⟩ ⟨a, -b, -c⟩ _ q), para (by simp [vadd, vneg]), para_z a0 b0,
    ← or_assoc (a := InTri ⟨a, b, c⟩ ⟨a, b, -c⟩ ⟨a, -b, -c⟩ q), para (by simp [vadd, vneg]), para_x b0 c0,
    ← or_assoc (a := InTri ⟨-a, b, c⟩ ⟨-a, b, -c⟩ _ q), para (by simp [vadd, vneg]), para_x b0 c0,
    ← or_assoc (a := InTri ⟨a, b, c⟩ ⟨a, b, -c⟩ _ q), para (by simp [vadd, vneg]), para_y a0 c0,
    para (by simp [vadd, vneg]), para_y a0 c0]
  simp only [BoxSurface, Box, ← ha, ← hb, ← hc]
  have ea : |q.x| = a ↔ q.x = a ∨ q.x = -a := abs_eq a0
  have eb : |q.y| = b ↔ q.y = b ∨ q.y = -b := abs_eq b0
  have ec : |q.z| = c ↔ q.z = c ∨ q.z = -c := abs_eq c0
  constructor
  · rintro (⟨h1, h2, h3⟩ | ⟨h1, h2, h3⟩ | ⟨h1, h2, h3⟩ | ⟨h1, h2, h3⟩ | ⟨h1, h2, h3⟩ | ⟨h1, h2, h3⟩)
    · exact ⟨⟨h1, h2, (ec.2 (Or.inl h3)).le⟩, Or.inr (Or.inr (ec.2 (Or.inl h3)))⟩
    · exact ⟨⟨h1, h2, (ec.2 (Or.inr h3)).le⟩, Or.inr (Or.inr (ec.2 (Or.inr h3)))⟩
    · exact ⟨⟨(ea.2 (Or.inl h3)).le, h1, h2⟩, Or.inl (ea.2 (Or.inl h3))⟩
    · exact ⟨⟨(ea.2 (Or.inr h3)).le, h1, h2⟩, Or.inl (ea.2 (Or.inr h3))⟩
    · exact ⟨⟨h1, (eb.2 (Or.inl h3)).le, h2⟩, Or.inr (Or.inl (eb.2 (Or.inl h3)))⟩
    · exact ⟨⟨h1, (eb.2 (Or.inr h3)).le, h2⟩, Or.inr (Or.inl (eb.2 (Or.inr h3)))⟩
  · rintro ⟨⟨h1, h2, h3⟩, h | h | h⟩
    · rcases ea.1 h with h | h
      · exact Or.inr (Or.inr (Or.inl ⟨h2, h3, h⟩))
      · exact Or.inr (Or.inr (Or.inr (Or.inl ⟨h2, h3, h⟩)))
    · rcases eb.1 h with h | h
      · exact Or.inr (Or.inr (Or.inr (Or.inr (Or.inl ⟨h1, h3, h⟩))))
      · exact Or.inr (Or.inr (Or.inr (Or.inr (Or.inr ⟨h1, h3, h⟩))))
    · rcases ec.1 h with h | h
      · exact Or.inl ⟨h1, h2, h⟩
      · exact Or.inr (Or.inl ⟨h1, h2, h⟩)

/-! ## Cases -/

/-- The middle of the top of a box is drawn, its centre is not. -/
example : Drawn (box ⟨2, 2, 2⟩) ⟨0, 0, 1⟩ ∧ ¬ Drawn (box ⟨2, 2, 2⟩) ⟨0, 0, 0⟩ := by
  rw [C86_box _ (by norm_num) (by norm_num) (by norm_num),
    C86_box _ (by norm_num) (by norm_num) (by norm_num)]
  norm_num [BoxSurface, Box]

/-- In a grid of dimension 1 with spacing 0.4, the line at -0.8 is drawn and there is none at 0.6. -/
example : ∃ m, grid 1 1 (2 / 5) (2 / 5) (1 / 100) = some m ∧ Drawn m ⟨-(4 / 5), 3 / 5, 0⟩ ∧
    ¬ Drawn m ⟨3 / 5, 3 / 5, 0⟩ := by
  obtain ⟨m, h, -, -, -, hd⟩ := C86_grid 1 1 (2 / 5) (2 / 5) (1 / 100) (by norm_num) (by norm_num)
    (by norm_num) (by norm_num) (by norm_num)
  have none : ∀ i : ℤ, ¬ |(3 / 5 : ℝ) - i * (2 / 5)| ≤ 1 / 100 / 2 := by
    intro i hi
    rw [abs_le] at hi
    have h1 : (1 : ℝ) < i := by linarith
    have h2 : (i : ℝ) < 2 := by linarith
    have h1' : (1 : ℤ) < i := by exact_mod_cast h1
    have h2' : i < (2 : ℤ) := by exact_mod_cast h2
    omega
  refine ⟨m, h, (hd _).2 ⟨rfl, Or.inl ⟨-2, ?_, ?_, 2, ?_, ?_⟩⟩, fun hq => ?_⟩
  · norm_num [abs_le]
  · norm_num
  · norm_num
  · norm_num [abs_le]
  · rcases ((hd _).1 hq).2 with ⟨i, -, h, -⟩ | ⟨i, -, h, -⟩
    · exact none i h
    · exact none i h

end Verif.GlMesh
