import Verif.Model.TfConv
import Mathlib.Algebra.Order.Floor.Semiring

/-!
# Model: meshes drawn for shapes (src/amino_gl.c)

`GLfloat` and `double` are `ℝ`, arrays of coordinates are lists of points, arrays of indices are lists
of triples.  Textures and the transfer to the graphics card (`bind_mesh`) are not modelled.
-/

namespace Verif.GlMesh

open Verif.Tf

/-- `struct aa_rx_mesh` as far as filled in by the functions below (`aa_rx_mesh_set_vertices`,
`aa_rx_mesh_set_normals`, `aa_rx_mesh_set_indices`, src/amino_gl.c:879-881, 977-979). -/
structure Mesh where
  verts : List V3
  normals : List V3
  tris : List (Nat × Nat × Nat)

noncomputable section

/-- `a[k]` for `a[2] = {1,-1}` (src/amino_gl.c:795, 910). -/
def sg (k : Nat) : ℝ := if k = 0 then 1 else -1

/-! ## Grid -/

/-- `(size_t)(d/delta)`: undefined for a zero divisor or a quotient that is not above -1. -/
def quot (d delta : ℝ) : Option Nat :=
  if delta = 0 ∨ d / delta ≤ -1 then none else some ⌊d / delta⌋₊

/-- The coordinates and their order for one line of the grid: the four corners
(src/amino_gl.c:809-823, 846-860). -/
def quad (x0 x1 y0 y1 : ℝ) : List V3 := [⟨x0, y0, 0⟩, ⟨x0, y1, 0⟩, ⟨x1, y1, 0⟩, ⟨x1, y0, 0⟩]

/-- src/amino_gl.c:799-823: vertices of the lines across the x axis. -/
def gridX (nx : Nat) (dx w ymax : ℝ) : List V3 :=
  (List.range 2).flatMap fun k =>
    (List.range' k (nx - k)).flatMap fun (i : Nat) =>
      let nom := sg k * i * dx
      quad (nom + w) (nom - w) (-ymax) ymax

/-- src/amino_gl.c:837-860: vertices of the lines across the y axis. -/
def gridY (ny : Nat) (dy w xmax : ℝ) : List V3 :=
  (List.range 2).flatMap fun k =>
    (List.range' k (ny - k)).flatMap fun (i : Nat) =>
      let nom := sg k * i * dy
      quad (-xmax) xmax (nom + w) (nom - w)

/-- src/amino_gl.c:825-833, 862-870: the indices of `n` passes of the loops, starting with `nn`. -/
def gridTris (nn : Nat) : Nat → List (Nat × Nat × Nat)
  | 0 => []
  | n + 1 => (nn, nn + 1, nn + 2) :: (nn, nn + 2, nn + 3) :: gridTris (nn + 4) n

/-- `n_vert` (src/amino_gl.c:787): the vertices there is room for. -/
def gridVert (nx ny : Nat) : Nat := 8 * (nx + ny - 1)

/-- src/amino_gl.c:776-888 `aa_geom_gl_buffers_init_grid`.  The loops for x and y make `2 nx - 1` and
`2 ny - 1` passes.  `nn` is a natural number; the code has an `unsigned`, which is the same below
2^30 passes. -/
def grid (dim0 dim1 delta0 delta1 width : ℝ) : Option Mesh :=
  match quot dim0 delta0, quot dim1 delta1 with
  | some qx, some qy =>
    let nx := qx + 1
    let ny := qy + 1
    let w := width / 2
    let passes := (nx + (nx - 1)) + (ny + (ny - 1))
    some ⟨gridX nx delta0 w (((ny - 1 : Nat) : ℝ) * delta1) ++
        gridY ny delta1 w (((nx - 1 : Nat) : ℝ) * delta0), [], gridTris 0 passes⟩
  | _, _ => none

/-! ## Box -/

/-- `ii` (src/amino_gl.c:911). -/
def boxCorners : List (Nat × Nat) := [(0, 0), (0, 1), (1, 1), (1, 0)]

/-- src/amino_gl.c:959-974: the indices of `n` passes, starting with `nn`. -/
def boxTris (nn : Nat) : Nat → List (Nat × Nat × Nat)
  | 0 => []
  | n + 1 => (nn, nn + 1, nn + 2) :: (nn, nn + 3, nn + 2) :: boxTris (nn + 4) n

/-- src/amino_gl.c:890-984 `aa_geom_gl_buffers_init_box`: the sides across z, x and y. -/
def box (dim : V3) : Mesh :=
  let d : V3 := ⟨dim.x / 2, dim.y / 2, dim.z / 2⟩
  let side (f : Nat → Nat → Nat → V3) : List V3 :=
    (List.range 2).flatMap fun k => boxCorners.map fun ij => f k ij.1 ij.2
  ⟨side (fun k i j => ⟨sg i * d.x, sg j * d.y, sg k * d.z⟩) ++
      (side (fun k i j => ⟨sg k * d.x, sg i * d.y, sg j * d.z⟩) ++
        side (fun k i j => ⟨sg i * d.x, sg k * d.y, sg j * d.z⟩)),
    side (fun k _ _ => ⟨0, 0, sg k⟩) ++
      (side (fun k _ _ => ⟨sg k, 0, 0⟩) ++ side (fun k _ _ => ⟨0, sg k, 0⟩)),
    boxTris 0 6⟩

/-! ## Sphere -/

/-- src/amino_gl.c:1024-1046: the point of the sphere in the middle of two; undefined if they are
opposite. -/
def mid (r : ℝ) (v w : V3) : Option V3 :=
  let u : V3 := ⟨(v.x + w.x) / 2, (v.y + w.y) / 2, (v.z + w.z) / 2⟩
  let a := u.x * u.x + u.y * u.y + u.z * u.z
  if Real.sqrt a = 0 then none
  else
    let s := r / Real.sqrt a
    some ⟨u.x * s, u.y * s, u.z * s⟩

/-- src/amino_gl.c:1015-1063: one pass of the loop of `geodesic_round`. -/
def geodesicFace (r : ℝ) (V : List V3) (f : Nat × Nat × Nat) :
    Option (List V3 × List (Nat × Nat × Nat)) :=
  match V[f.1]?, V[f.2.1]?, V[f.2.2]? with
  | some v0, some v1, some v2 =>
    match mid r v0 v1, mid r v0 v2, mid r v1 v2 with
    | some u01, some u02, some u12 =>
      let k01 := V.length
      let V1 := V ++ [u01]
      let k02 := V1.length
      let V2 := V1 ++ [u02]
      let k12 := V2.length
      let V3 := V2 ++ [u12]
      some (V3, [(f.1, k01, k02), (f.2.1, k01, k12), (f.2.2, k02, k12), (k01, k02, k12)])
    | _, _, _ => none
  | _, _, _ => none

/-- src/amino_gl.c:1009-1065 `geodesic_round`. -/
def geodesicRound (r : ℝ) : List V3 → List (Nat × Nat × Nat) →
    Option (List V3 × List (Nat × Nat × Nat))
  | V, [] => some (V, [])
  | V, f :: fs =>
    match geodesicFace r V f with
    | none => none
    | some (V', new) =>
      match geodesicRound r V' fs with
      | none => none
      | some (V'', rest) => some (V'', new ++ rest)

/-- src/amino_gl.c:1101-1122: `v`. -/
def icoVerts (r : ℝ) : List V3 :=
  let phi := (1 + Real.sqrt 5) / 2
  let n := r / Real.sqrt (1 + phi * phi)
  let p := n
  let q := phi * n
  [⟨0, q, p⟩, ⟨0, q, -p⟩, ⟨0, -q, p⟩, ⟨0, -q, -p⟩,
   ⟨p, 0, q⟩, ⟨p, 0, -q⟩, ⟨-p, 0, q⟩, ⟨-p, 0, -q⟩,
   ⟨q, p, 0⟩, ⟨q, -p, 0⟩, ⟨-q, p, 0⟩, ⟨-q, -p, 0⟩]

/-- src/amino_gl.c:1124-1147: `f`. -/
def icoFaces : List (Nat × Nat × Nat) :=
  [(0, 4, 8), (0, 8, 1), (0, 1, 10), (0, 10, 6), (0, 4, 6),
   (3, 2, 9), (3, 9, 5), (3, 5, 7), (3, 7, 11), (3, 11, 2),
   (6, 2, 4), (2, 4, 9), (4, 9, 8), (9, 8, 5), (8, 5, 1),
   (5, 1, 7), (1, 7, 10), (7, 10, 11), (10, 11, 6), (11, 6, 2)]

/-- src/amino_gl.c:1174-1180: the given number of rounds. -/
def geodesic (r : ℝ) : Nat → List V3 → List (Nat × Nat × Nat) →
    Option (List V3 × List (Nat × Nat × Nat))
  | 0, V, fs => some (V, fs)
  | n + 1, V, fs =>
    match geodesicRound r V fs with
    | none => none
    | some (V', fs') => geodesic r n V' fs'

/-- src/amino_gl.c:1067-1215 `init_sphere`. -/
def sphere (r : ℝ) : Option Mesh :=
  match geodesic r 3 (icoVerts r) icoFaces with
  | none => none
  | some (V, fs) =>
    if r = 0 then none
    else some ⟨V, V.map fun v => ⟨v.x / r, v.y / r, v.z / r⟩, fs⟩

/-! ## Cone and cylinder -/

/-- `p` (src/amino_gl.c:1227, 1348). -/
def sides : Nat := 36

/-- `theta` (src/amino_gl.c:1242, 1362). -/
def theta (i : Nat) : ℝ := i * (2 * Real.pi / sides)

/-- `{a0, a1}[j]`. -/
def pick {α : Type} (a0 a1 : α) (j : Nat) : α := if j = 0 then a0 else a1

/-- src/amino_gl.c:1238-1256: vertices of the side. -/
def coneSide (h r0 r1 : ℝ) : List V3 :=
  (List.range sides).flatMap fun i => (List.range 2).map fun j =>
    ⟨Real.cos (theta i) * pick r0 r1 j, Real.sin (theta i) * pick r0 r1 j, pick 0 h j⟩

/-- src/amino_gl.c:1238-1256: normals of the side. -/
def coneSideNormals : List V3 :=
  (List.range sides).flatMap fun i => (List.range 2).map fun _ =>
    ⟨Real.cos (theta i), Real.sin (theta i), 0⟩

/-- src/amino_gl.c:1257-1271: triangles of the side. -/
def coneSideTris : List (Nat × Nat × Nat) :=
  (List.range sides).flatMap fun i =>
    let k0 := 2 * i
    let k1 := k0 + 1
    let k2 := (k1 + 1) % (2 * sides)
    let k3 := (k2 + 1) % (2 * sides)
    [(k0, k1, k2), (k3, k1, k2)]

/-- src/amino_gl.c:1286-1296: triangles of the ends; `kEnd` is the first vertex of the ends, `c` the
first centre. -/
def coneEndTris (kEnd c : Nat) : List (Nat × Nat × Nat) :=
  (List.range sides).flatMap fun i =>
    let k0 := kEnd + (2 * i + 0)
    let k1 := kEnd + (2 * i + 1)
    let k2 := kEnd + ((2 * i + 2) % (2 * sides))
    let k3 := kEnd + ((2 * i + 3) % (2 * sides))
    (List.range 2).map fun j => (pick c (c + 1) j, pick k0 k1 j, pick k2 k3 j)

/-- src/amino_gl.c:1298-1301: normals of the ends. -/
def coneEndNormals : List V3 :=
  (List.range sides).flatMap fun _ => (List.range 2).map fun j => ⟨0, 0, pick (-1) 1 j⟩

/-- src/amino_gl.c:1219-1326 `init_cone_cylinder`. -/
def coneCylinder (h r0 r1 : ℝ) : Mesh :=
  let side := coneSide h r0 r1
  let kEnd := side.length
  let c := kEnd + side.length
  ⟨side ++ (side ++ (List.range 2).map fun j => ⟨0, 0, pick 0 h j⟩),
    coneSideNormals ++ (coneEndNormals ++ (List.range 2).map fun j => ⟨0, 0, pick (-1) 1 j⟩),
    coneSideTris ++ coneEndTris kEnd c⟩

/-- src/amino_gl.c:1464-1471: a cylinder. -/
def cylinder (h r : ℝ) : Mesh := coneCylinder h r r

/-! ## Torus -/

/-- `n_major` (src/amino_gl.c:1341-1345); the conversion to `unsigned` is undefined for quotients
outside of its range. -/
def nMajor (angle : ℝ) : Option Nat :=
  let q := angle / (Real.pi * 2 / 72)
  if q ≤ -1 ∨ 2 ^ 32 ≤ q then none
  else some (if ⌊q⌋₊ < 8 then 8 else ⌊q⌋₊)

/-- `phi` (src/amino_gl.c:1346, 1382-1384). -/
def torusPhi (angle : ℝ) (n j : Nat) : ℝ :=
  let phi := (j : ℝ) * (angle / (n - 1 : ℕ))
  if phi > angle then angle else phi

/-- src/amino_gl.c:1357-1376: `circ_base`. -/
def circBase (R r : ℝ) : List V3 :=
  (List.range sides).map fun i => ⟨R + Real.cos (theta i) * r, 0, Real.sin (theta i) * r⟩

/-- src/amino_gl.c:1357-1376: `circ_norm`. -/
def circNorm : List V3 :=
  (List.range sides).map fun i => ⟨Real.cos (theta i), 0, Real.sin (theta i)⟩

/-- src/amino_gl.c:1379-1403: a circle turned to all positions along the arc. -/
def turned (angle : ℝ) (n : Nat) (circ : List V3) : List V3 :=
  (List.range n).flatMap fun j => circ.map (rot9 (angle2rotmat .Z (torusPhi angle n j)))

/-- `unsigned` arithmetic. -/
def u32 (n : Nat) : Nat := n % 2 ^ 32

/-- src/amino_gl.c:1407-1427: the indices; `-i` is an `unsigned`. -/
def torusTris (n : Nat) : List (Nat × Nat × Nat) :=
  (List.range (n - 1)).flatMap fun j => (List.range sides).flatMap fun i =>
    let k0 := u32 (j * sides + i)
    let k1 := u32 (k0 + sides)
    let kd := if i + 1 = sides then u32 (2 ^ 32 - i) else 1
    let k2 := u32 (k0 + kd)
    let k3 := u32 (k1 + kd)
    [(k0, k1, k2), (k3, k1, k2)]

/-- src/amino_gl.c:1331-1444 `init_torus`. -/
def torus (angle R r : ℝ) : Option Mesh :=
  match nMajor angle with
  | none => none
  | some n => some ⟨turned angle n (circBase R r), turned angle n circNorm, torusTris n⟩

end

end Verif.GlMesh
