/-
Meshes as the scene compiler writes them: `mesh-deindex-normals` (lisp/rx/mesh.lisp:71-129), the texture
coordinates of `scene-genc-mesh-texture` (lisp/rx/sg-gen.lisp:180-216) and the calls of
`scene-genc-mesh-functions` (222-252).

Simplified: numbers are the elements of a field (`uv`) or of any type with decidable equality (vectors);
printing of numbers is not modelled.  The hash table is the list of its keys in the order of insertion, the
value of a key is its position; `maphash` over it is a map over the list.  `none` stands for a failed
assertion or an index out of range.
-/
import Mathlib.Data.List.Basic
import Mathlib.Algebra.Field.Defs

namespace Verif.MeshDe

variable {K : Type} [DecidableEq K]

/-- `mesh-data` (lisp/rx/mesh.lisp:41-52); vectors flat, three indices for each face, one texture for each
face (`none`: no textures). -/
structure Mesh (K : Type) where
  verts : List K
  vidx : List Nat
  norms : List K
  nidx : List Nat
  tex : Option (List Int)

/-- The key of a corner (lisp/rx/mesh.lisp:92-99). -/
structure Key (K : Type) where
  x : K
  y : K
  z : K
  nx : K
  ny : K
  nz : K
  t : Option Int
deriving DecidableEq

/-- The texture of corner `i` (lisp/rx/mesh.lisp:98-99). -/
def texAt (tex : Option (List Int)) (i : Nat) : Option (Option Int) :=
  match tex with
  | none => some none
  | some ts => (ts[i / 3]?).map some

/-- The list for corner `i` with vertex `v` and normal `n` (lisp/rx/mesh.lisp:90-99). -/
def key (m : Mesh K) (i v n : Nat) : Option (Key K) :=
  m.verts[3 * v + 0]?.bind fun x => m.verts[3 * v + 1]?.bind fun y => m.verts[3 * v + 2]?.bind fun z =>
  m.norms[3 * n + 0]?.bind fun nx => m.norms[3 * n + 1]?.bind fun ny => m.norms[3 * n + 2]?.bind fun nz =>
  (texAt m.tex i).map fun t => ⟨x, y, z, nx, ny, nz, t⟩

/-- The loop over corners (lisp/rx/mesh.lisp:88-107): the keys so far, and the new indices. -/
def loop (m : Mesh K) : Nat → List (Nat × Nat) → List (Key K) → List Nat → Option (List (Key K) × List Nat)
  | _, [], hash, out => some (hash, out)
  | i, (v, n) :: rest, hash, out =>
      (key m i v n).bind fun k =>
        if k ∈ hash then loop m (i + 1) rest hash (out ++ [hash.idxOf k])
        else loop m (i + 1) rest (hash ++ [k]) (out ++ [hash.length])

/-- `mesh-deindex-normals` (lisp/rx/mesh.lisp:71-129).  Normal indices are dropped; without textures the new
texture indices are empty. -/
def deindex (m : Mesh K) : Option (Mesh K) :=
  if m.vidx.length = m.nidx.length then
    (loop m 0 (m.vidx.zip m.nidx) [] []).map fun r =>
      { verts := r.1.flatMap fun k => [k.x, k.y, k.z]
        vidx := r.2
        norms := r.1.flatMap fun k => [k.nx, k.ny, k.nz]
        nidx := []
        tex := some (r.1.filterMap fun k => k.t) }
  else none

/-- The texture coordinates for `n` textures (lisp/rx/sg-gen.lisp:203-209). -/
def uv {F : Type} [Field F] (n : Nat) (tex : List Int) : List F :=
  tex.flatMap fun (j : Int) => [(j : F) / (n : F) + 1 / (2 * (n : F)), 0]

/-- The arguments of the calls that fill the mesh (lisp/rx/sg-gen.lisp:242-250 and 210-216), textures as
their number: none if there are none (`when-let`, 181-182).  The numbers of vertices, faces and normals are
rationals; here they are not whole for a broken length (`none`). -/
structure Calls (K F : Type) where
  nVert : Nat
  verts : List K
  nFace : Nat
  idx : List Nat
  nNorm : Nat
  norms : List K
  uv : Option (Nat × List F)

/-- `scene-genc-mesh-functions` for a mesh with `n` textures (lisp/rx/sg-gen.lisp:222-252). -/
def gen {F : Type} [Field F] (n : Nat) (m : Mesh K) : Option (Calls K F) :=
  (deindex m).bind fun d =>
    let tex := d.tex.getD []
    if d.verts.length % 3 ≠ 0 ∨ d.vidx.length % 3 ≠ 0 ∨ d.norms.length % 3 ≠ 0 then none
    else if n = 0 then
      some ⟨d.verts.length / 3, d.verts, d.vidx.length / 3, d.vidx, d.norms.length / 3, d.norms, none⟩
    else if 3 * tex.length = d.verts.length then
      some ⟨d.verts.length / 3, d.verts, d.vidx.length / 3, d.vidx, d.norms.length / 3, d.norms,
        some (tex.length, uv n tex)⟩
    else none

end Verif.MeshDe
