import Verif.Model.TfDh
import Verif.Prop.Rigid

/-!
# C66: Denavit-Hartenberg parameters

Specification: `screwX t s` rotates points by `t` about the x axis and slides them `s` along it,
`screwZ` the same for z.
-/

namespace Verif.Tf

open Real

/-- Rotate by `t` about x and slide by `s` along x. -/
noncomputable def screwX (t s : ℝ) (p : V3) : V3 :=
  ⟨p.x + s, cos t * p.y - sin t * p.z, sin t * p.y + cos t * p.z⟩

/-- Rotate by `t` about z and slide by `s` along z. -/
noncomputable def screwZ (t s : ℝ) (p : V3) : V3 :=
  ⟨cos t * p.x - sin t * p.y, sin t * p.x + cos t * p.y, p.z + s⟩

theorem sin_two_half (t : ℝ) : sin t = 2 * sin (t / 2) * cos (t / 2) := by
  rw [← sin_two_mul]; congr 1; ring

theorem cos_two_half (t : ℝ) : cos t = cos (t / 2) ^ 2 - sin (t / 2) ^ 2 := by
  rw [← cos_two_mul']; congr 1; ring

/-- The quaternion-translation pair of a screw about x. -/
noncomputable def qx (t s : ℝ) : Qutr := ⟨⟨sin (t / 2), 0, 0, cos (t / 2)⟩, ⟨s, 0, 0⟩⟩

/-- The quaternion-translation pair of a screw about z. -/
noncomputable def qz (t s : ℝ) : Qutr := ⟨⟨0, 0, sin (t / 2), cos (t / 2)⟩, ⟨0, 0, s⟩⟩

theorem qx_valid (t s : ℝ) : (qx t s).Valid := by
  show _ = _
  simp [qx]

theorem qz_valid (t s : ℝ) : (qz t s).Valid := by
  show _ = _
  simp [qz]

theorem qx_tf (t s : ℝ) (p : V3) : qutrTf (qx t s) p = screwX t s p := by
  have h := sin_sq_add_cos_sq (t / 2)
  ext <;> simp only [qutrTf, qx, screwX, sin_two_half t, cos_two_half t]
  · ring
  · linear_combination (-p.y) * h
  · linear_combination (-p.z) * h

theorem qz_tf (t s : ℝ) (p : V3) : qutrTf (qz t s) p = screwZ t s p := by
  have h := sin_sq_add_cos_sq (t / 2)
  ext <;> simp only [qutrTf, qz, screwZ, sin_two_half t, cos_two_half t]
  · linear_combination (-p.x) * h
  · linear_combination (-p.y) * h
  · ring

theorem dhprox_qutr (alpha a d phi : ℝ) :
    dhprox2qutr alpha a d phi = qutrMul (qx alpha a) (qz phi d) := by
  refine Qutr.ext ?_ ?_
  · ext <;> simp [dhprox2qutr, qutrMul, qmul, qx, qz]
  · show _ = qutrTf (qx alpha a) (qz phi d).v
    rw [qx_tf]
    ext <;> simp [dhprox2qutr, screwX, qz, sin_two_half alpha, cos_two_half alpha] <;> ring

theorem dhdist_qutr (alpha a d phi : ℝ) :
    dhdist2qutr alpha a d phi = qutrMul (qz phi d) (qx alpha a) := by
  refine Qutr.ext ?_ ?_
  · ext <;> simp [dhdist2qutr, qutrMul, qmul, qx, qz] <;> ring
  · show _ = qutrTf (qz phi d) (qx alpha a).v
    rw [qz_tf]
    ext <;> simp [dhdist2qutr, screwZ, qx, sin_two_half phi, cos_two_half phi] <;> ring

theorem dhprox_duqu (alpha a d phi : ℝ) :
    dhprox2duqu alpha a d phi = qutr2duqu (dhprox2qutr alpha a d phi) := by
  rw [dhprox_qutr, (C26_compose _ _ (qx_valid _ _) (qz_valid _ _)).1]
  refine Duqu.ext ?_ ?_
  · ext <;> simp [dhprox2duqu, qutr2duqu, duquMul, qmul, qx, qz]
  · ext <;> simp [dhprox2duqu, qutr2duqu, duquMul, qmul, qmulA, qmulVQ, vdot, Quat.vec, qx, qz] <;> ring

theorem dhdist_duqu (alpha a d phi : ℝ) :
    dhdist2duqu alpha a d phi = qutr2duqu (dhdist2qutr alpha a d phi) := by
  rw [dhdist_qutr, (C26_compose _ _ (qz_valid _ _) (qx_valid _ _)).1]
  refine Duqu.ext ?_ ?_
  · ext <;> simp [dhdist2duqu, qutr2duqu, duquMul, qmul, qx, qz] <;> ring
  · ext <;> simp [dhdist2duqu, qutr2duqu, duquMul, qmul, qmulA, qmulVQ, vdot, Quat.vec, qx, qz] <;> ring

theorem dhprox_tfm (alpha a d phi : ℝ) (p : V3) :
    tfmTf (dhprox2tfmat alpha a d phi) p = screwX alpha a (screwZ phi d p) := by
  ext <;> simp only [tfmTf, dhprox2tfmat, screwX, screwZ] <;> ring

theorem dhdist_tfm (alpha a d phi : ℝ) (p : V3) :
    tfmTf (dhdist2tfmat alpha a d phi) p = screwZ phi d (screwX alpha a p) := by
  ext <;> simp only [tfmTf, dhdist2tfmat, screwX, screwZ] <;> ring

theorem dhprox_qutr_tf (alpha a d phi : ℝ) (p : V3) :
    qutrTf (dhprox2qutr alpha a d phi) p = screwX alpha a (screwZ phi d p) := by
  rw [dhprox_qutr, ← C26_point.1, (C26_compose _ _ (qx_valid _ _) (qz_valid _ _)).2.1,
    ← qz_tf, ← qx_tf, ← C26_point.1, ← C26_point.1]
  exact C26_chain _ _ [] p

theorem dhdist_qutr_tf (alpha a d phi : ℝ) (p : V3) :
    qutrTf (dhdist2qutr alpha a d phi) p = screwZ phi d (screwX alpha a p) := by
  rw [dhdist_qutr, ← C26_point.1, (C26_compose _ _ (qz_valid _ _) (qx_valid _ _)).2.1,
    ← qz_tf, ← qx_tf, ← C26_point.1, ← C26_point.1]
  exact C26_chain _ _ [] p

/-- **C66**: with proximal parameters every representation is valid and moves a point by the screw
about z followed, in the parent frame, by the screw about x. -/
theorem C66_proximal (alpha a d phi : ℝ) :
    (dhprox2tfmat alpha a d phi).Valid ∧ (dhprox2qutr alpha a d phi).Valid ∧
      (dhprox2duqu alpha a d phi).Valid ∧
      ∀ p, tfmTf (dhprox2tfmat alpha a d phi) p = screwX alpha a (screwZ phi d p) ∧
        qutrTf (dhprox2qutr alpha a d phi) p = screwX alpha a (screwZ phi d p) ∧
        duquTf (dhprox2duqu alpha a d phi) p = screwX alpha a (screwZ phi d p) := by
  have hv : (dhprox2qutr alpha a d phi).Valid := by
    rw [dhprox_qutr]; exact qutrMul_valid (qx_valid _ _) (qz_valid _ _)
  have ht : dhprox2tfmat alpha a d phi = qutr2tfmat (dhprox2qutr alpha a d phi) :=
    Tfm.ext_tf fun p => by rw [dhprox_tfm, C26_point.1, dhprox_qutr_tf]
  refine ⟨?_, hv, ?_, fun p => ⟨dhprox_tfm _ _ _ _ p, dhprox_qutr_tf _ _ _ _ p, ?_⟩⟩
  · rw [ht]; exact (C26_conversions.1 _ hv).2
  · rw [dhprox_duqu]; exact (C26_conversions.1 _ hv).1
  · rw [dhprox_duqu, C26_point.2.2.2 _ _ hv, dhprox_qutr_tf]

/-- **C66**: with distal parameters every representation is valid and moves a point by the screw
about x followed, in the parent frame, by the screw about z. -/
theorem C66_distal (alpha a d phi : ℝ) :
    (dhdist2tfmat alpha a d phi).Valid ∧ (dhdist2qutr alpha a d phi).Valid ∧
      (dhdist2duqu alpha a d phi).Valid ∧
      ∀ p, tfmTf (dhdist2tfmat alpha a d phi) p = screwZ phi d (screwX alpha a p) ∧
        qutrTf (dhdist2qutr alpha a d phi) p = screwZ phi d (screwX alpha a p) ∧
        duquTf (dhdist2duqu alpha a d phi) p = screwZ phi d (screwX alpha a p) := by
  have hv : (dhdist2qutr alpha a d phi).Valid := by
    rw [dhdist_qutr]; exact qutrMul_valid (qz_valid _ _) (qx_valid _ _)
  have ht : dhdist2tfmat alpha a d phi = qutr2tfmat (dhdist2qutr alpha a d phi) :=
    Tfm.ext_tf fun p => by rw [dhdist_tfm, C26_point.1, dhdist_qutr_tf]
  refine ⟨?_, hv, ?_, fun p => ⟨dhdist_tfm _ _ _ _ p, dhdist_qutr_tf _ _ _ _ p, ?_⟩⟩
  · rw [ht]; exact (C26_conversions.1 _ hv).2
  · rw [dhdist_duqu]; exact (C26_conversions.1 _ hv).1
  · rw [dhdist_duqu, C26_point.2.2.2 _ _ hv, dhdist_qutr_tf]

/-- **C66**: the representations are the ones the conversion functions would give. -/
theorem C66_representations (alpha a d phi : ℝ) :
    qutr2tfmat (dhprox2qutr alpha a d phi) = dhprox2tfmat alpha a d phi ∧
      qutr2duqu (dhprox2qutr alpha a d phi) = dhprox2duqu alpha a d phi ∧
      qutr2tfmat (dhdist2qutr alpha a d phi) = dhdist2tfmat alpha a d phi ∧
      qutr2duqu (dhdist2qutr alpha a d phi) = dhdist2duqu alpha a d phi :=
  ⟨Tfm.ext_tf fun p => by rw [dhprox_tfm, C26_point.1, dhprox_qutr_tf], (dhprox_duqu _ _ _ _).symm,
    Tfm.ext_tf fun p => by rw [dhdist_tfm, C26_point.1, dhdist_qutr_tf], (dhdist_duqu _ _ _ _).symm⟩

/-- The two conventions differ: a quarter turn and a slide. -/
example : tfmTf (dhprox2tfmat 0 1 0 (π / 2)) ⟨0, 0, 0⟩ = ⟨1, 0, 0⟩ ∧
    tfmTf (dhdist2tfmat 0 1 0 (π / 2)) ⟨0, 0, 0⟩ = ⟨0, 1, 0⟩ := by
  constructor <;> ext <;> simp [tfmTf, dhprox2tfmat, dhdist2tfmat]

end Verif.Tf
