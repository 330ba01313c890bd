import Verif.Model.Tf

/-!
# Denavit-Hartenberg parameters

Transcription of `src/tf/conv.c:394-574` over the reals.
-/

namespace Verif.Tf

open Real

noncomputable section

/-- src/tf/conv.c:394-418 `aa_tf_dhprox2tfmat`. -/
def dhprox2tfmat (alpha a d phi : ℝ) : Tfm :=
  let sp := sin phi; let cp := cos phi; let sa := sin alpha; let ca := cos alpha
  ⟨⟨cp, sp * ca, sp * sa, -sp, cp * ca, cp * sa, 0, -sa, ca⟩, ⟨a, -d * sa, d * ca⟩⟩

/-- src/tf/conv.c:420-450 `aa_tf_dhprox2duqu`. -/
def dhprox2duqu (alpha a d phi : ℝ) : Duqu :=
  let sp := sin (phi / 2); let cp := cos (phi / 2)
  let sa := sin (alpha / 2); let ca := cos (alpha / 2)
  let d2 := d / 2; let a2 := a / 2
  let q : Quat := ⟨sa * cp, -(sa * sp), ca * sp, ca * cp⟩
  ⟨q, ⟨a2 * q.w + d2 * q.y, -a2 * q.z - d2 * q.x, a2 * q.y + d2 * q.w, -a2 * q.x - d2 * q.z⟩⟩

/-- src/tf/conv.c:452-459 `aa_tf_dhprox2qutr`, :461-483 `aa_tf_dhprox2qv`. -/
def dhprox2qutr (alpha a d phi : ℝ) : Qutr :=
  let sp := sin (phi / 2); let cp := cos (phi / 2)
  let sa := sin (alpha / 2); let ca := cos (alpha / 2)
  let sa2 := 2 * sa * ca; let ca2 := ca * ca - sa * sa
  ⟨⟨sa * cp, -sa * sp, ca * sp, ca * cp⟩, ⟨a, -d * sa2, d * ca2⟩⟩

/-- src/tf/conv.c:485-510 `aa_tf_dhdist2tfmat`. -/
def dhdist2tfmat (alpha a d phi : ℝ) : Tfm :=
  let sp := sin phi; let cp := cos phi; let sa := sin alpha; let ca := cos alpha
  ⟨⟨cp, sp, 0, -sp * ca, cp * ca, sa, sp * sa, -cp * sa, ca⟩, ⟨a * cp, a * sp, d⟩⟩

/-- src/tf/conv.c:512-543 `aa_tf_dhdist2duqu`. -/
def dhdist2duqu (alpha a d phi : ℝ) : Duqu :=
  let sp := sin (phi / 2); let cp := cos (phi / 2)
  let sa := sin (alpha / 2); let ca := cos (alpha / 2)
  let d2 := d / 2; let a2 := a / 2
  let q : Quat := ⟨sa * cp, sa * sp, ca * sp, ca * cp⟩
  ⟨q, ⟨a2 * q.w - d2 * q.y, a2 * q.z + d2 * q.x, -a2 * q.y + d2 * q.w, -a2 * q.x - d2 * q.z⟩⟩

/-- src/tf/conv.c:545-552 `aa_tf_dhdist2qutr`, :554-574 `aa_tf_dhdist2qv`. -/
def dhdist2qutr (alpha a d phi : ℝ) : Qutr :=
  let sp := sin (phi / 2); let cp := cos (phi / 2)
  let sa := sin (alpha / 2); let ca := cos (alpha / 2)
  let sp2 := 2 * sp * cp; let cp2 := cp * cp - sp * sp
  ⟨⟨sa * cp, sa * sp, ca * sp, ca * cp⟩, ⟨a * cp2, a * sp2, d⟩⟩

end

end Verif.Tf
