import Verif.Proof.Life
import Mathlib.Data.Multiset.Filter
import Mathlib.Data.Multiset.Count

/-! The view of a client on lifetimes: which references it holds, what is attached to which frame, and
which data it gave to which mesh.  Nothing here refers to counts, pointers or blocks of the library. -/

namespace Verif.Life

/-- References of the client to geometry (`gh`) and meshes (`mh`); attached geometry by graph and frame;
frames and graphs that exist; graphs with limits (`lim`), and with limits from `aa_rx_sg_copy` (`inh`);
the numbers of meshes, objects and graphs made so far; the mesh of an object; the data of a mesh; the
plugin that a mesh was loaded from; the plugins that were loaded into graphs, the last one of each graph,
and how often a plugin was the last one before another was loaded into the same graph. -/
structure Led where
  gh : Nat → Nat
  mh : Nat → Nat
  att : Multiset (Nat × Nat × Nat)
  fr : Nat → Nat → Bool
  sg : Nat → Bool
  lim : Nat → Bool
  inh : Nat → Bool
  nM : Nat
  nG : Nat
  nS : Nat
  mesh : Nat → Option Nat
  arr : Nat → Fld → Option Given
  src : Nat → Option Nat
  via : Nat → Prop
  last : Nat → Option Nat
  lost : Nat → Nat

def Led.init : Led :=
  ⟨fun _ => 0, fun _ => 0, 0, fun _ _ => false, fun _ => false, fun _ => false, fun _ => false, 0, 0, 0,
    fun _ => none, fun _ _ => none, fun _ => none, fun _ => False, fun _ => none,
    fun _ => 0⟩

/-- References to a geometry object: those of the client and those of frames. -/
def Led.refsG (L : Led) (g : Nat) : Nat := L.gh g + (L.att.map (·.2.2)).count g

/-- References to a mesh: those of the client and those of geometry objects that still exist. -/
def Led.refsM (L : Led) (m : Nat) : Nat :=
  L.mh m + ((Finset.range L.nG).filter fun g => 0 < L.refsG g ∧ L.mesh g = some m).card

def Led.addFrame (L : Led) (k f : Nat) : Led :=
  { L with att := L.att.filter (fun x => ¬ (x.1 = k ∧ x.2.1 = f))
           fr := fun a b => if a = k ∧ b = f then true else L.fr a b }

/-- A new geometry object, with one reference. -/
def Led.newG (L : Led) (o : Option Nat) : Led :=
  { L with gh := upd L.gh L.nG 1, nG := L.nG + 1, mesh := upd L.mesh L.nG o }

/-- What a call does to references, frames and data. -/
def Led.next (L : Led) : Op → Led
  | .meshCreate => { L with mh := upd L.mh L.nM 1, nM := L.nM + 1, arr := upd L.arr L.nM (fun _ => none),
                            src := upd L.src L.nM none }
  | .meshDestroy m => { L with mh := upd L.mh m (L.mh m - 1) }
  | .meshSet m f x => { L with arr := fun k g => if k = m ∧ g = f then some (srcGiven x) else L.arr k g }
  | .meshTexture m d => { L with arr := fun k g => if k = m ∧ g = .uv then some (.own 0) else
                                               if k = m ∧ g = .rgba then some (.own d) else L.arr k g }
  | .dlMesh p d => { L with mh := upd L.mh L.nM 1, nM := L.nM + 1,
                            arr := upd L.arr L.nM (fun _ => some (.lib p d)),
                            src := upd L.src L.nM (some p) }
  | .geomPlain => L.newG none
  | .geomMesh m => L.newG (some m)
  | .geomCopy g => { L with gh := upd L.gh g (L.gh g + 1) }
  | .geomModify g => L.newG (L.mesh g)
  | .clInit _ => L
  | .glInit _ => L
  | .geomDestroy g => { L with gh := upd L.gh g (L.gh g - 1) }
  | .cleanup => L
  | .sgCreate => { L with sg := upd L.sg L.nS true, nS := L.nS + 1, lim := upd L.lim L.nS false,
                          inh := upd L.inh L.nS false, last := upd L.last L.nS none }
  | .addFrame k f => L.addFrame k f
  | .rmFrame k f => { L with att := L.att.filter (fun x => ¬ (x.1 = k ∧ x.2.1 = f))
                             fr := fun a b => if a = k ∧ b = f then false else L.fr a b }
  | .attach k f g => { L with att := (k, f, g) ::ₘ L.att, gh := upd L.gh g (L.gh g - 1) }
  | .copyFrameGeom k f1 f2 =>
    { L with att := L.att + (L.att.filter fun x => x.1 = k ∧ x.2.1 = f1).map fun x => (k, f2, x.2.2) }
  | .setLimit k _ => { L with lim := upd L.lim k true }
  | .sgCopy k => { L with sg := upd L.sg L.nS true, nS := L.nS + 1, lim := upd L.lim L.nS (L.lim k),
                          inh := upd L.inh L.nS (L.lim k), last := upd L.last L.nS none, fr := upd L.fr L.nS (L.fr k),
                          att := L.att + (L.att.filter fun x => x.1 = k).map fun x => (L.nS, x.2.1, x.2.2) }
  | .sgDestroy k => { L with sg := upd L.sg k false, fr := upd L.fr k (fun _ => false),
                             att := L.att.filter fun x => x.1 ≠ k }
  | .dlSg p d k f =>
    { L.addFrame k f with
      att := (k, f, L.nG) ::ₘ (L.addFrame k f).att
      nM := L.nM + 1, nG := L.nG + 1, mesh := upd L.mesh L.nG (some L.nM)
      arr := upd L.arr L.nM (fun _ => some (.lib p d)), src := upd L.src L.nM none
      via := fun q => L.via q ∨ q = p
      last := upd L.last k (some p)
      lost := fun q => L.lost q + if L.last k = some q then 1 else 0 }

/-- What the documentation asks of the caller: objects, graphs and frames exist, and only references of
one's own are given away or destroyed. -/
def Allowed (L : Led) : Op → Prop
  | .meshDestroy m => 0 < L.mh m
  | .meshSet m _ _ => 0 < L.refsM m
  | .meshTexture m _ => 0 < L.refsM m
  | .geomMesh m => 0 < L.refsM m
  | .geomCopy g => 0 < L.refsG g
  | .geomModify g => 0 < L.refsG g
  | .clInit g => 0 < L.refsG g
  | .glInit g => 0 < L.refsG g
  | .geomDestroy g => 0 < L.gh g
  | .addFrame k _ => L.sg k = true
  | .rmFrame k _ => L.sg k = true
  | .attach k f g => L.sg k = true ∧ L.fr k f = true ∧ 0 < L.gh g
  | .copyFrameGeom k f1 f2 => L.sg k = true ∧ L.fr k f1 = true ∧ L.fr k f2 = true
  | .setLimit k _ => L.sg k = true
  | .sgCopy k => L.sg k = true
  | .sgDestroy k => L.sg k = true
  | .dlSg _ _ k _ => L.sg k = true
  | _ => True

/-- Calls that are excluded because the code is wrong there: `aa_rx_mesh_set_texture` over copied texture
coordinates, `aa_rx_sg_copy_frame_geom` of a frame to itself, and destroying a copy of a graph that has
limits. -/
def Clean (L : Led) : Op → Prop
  | .meshTexture m _ => ∀ d, L.arr m .uv ≠ some (.own d)
  | .copyFrameGeom k f1 f2 => f1 = f2 → L.att.filter (fun x => x.1 = k ∧ x.2.1 = f1) = 0
  | .sgDestroy k => L.inh k = false
  | _ => True

/-- Counts fit into `unsigned`. -/
def Bounded (L : Led) : Prop := (∀ g, L.refsG g < 2 ^ 32) ∧ ∀ m, L.refsM m < 2 ^ 32

/-- The client follows the rules, avoids what is excluded, and never holds too many references. -/
def Good (L : Led) : List Op → Prop
  | [] => True
  | o :: os => Allowed L o ∧ Clean L o ∧ Bounded (L.next o) ∧ Good (L.next o) os

/-- The client follows the rules. -/
def Obeys (L : Led) : List Op → Prop
  | [] => True
  | o :: os => Allowed L o ∧ Obeys (L.next o) os

def Led.after (L : Led) : List Op → Led
  | [] => L
  | o :: os => (L.next o).after os

end Verif.Life
