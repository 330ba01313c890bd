import Verif.Model.Tf

/-!
# Planar transforms

Transcription of `src/tf/tfp.c` over the reals.  A C99 `double complex` (also used for 2D vectors,
include/amino/tf/planar.h:45-61) is the pair of its parts, `double[4]` a column-major 2x2 array,
`double[6]` such an array followed by a translation.  The complex product of C is written out.
-/

namespace Verif.Tfp

open Verif.Tf (atan2)

noncomputable section

/-- `aa_tf_cmplx`, `aa_tf_vec2` (include/amino/tf/planar.h:45-61). -/
@[ext] structure Cx where
  re : ℝ
  im : ℝ

/-- Column-major `double[4]`. -/
@[ext] structure R2 where
  m0 : ℝ
  m1 : ℝ
  m2 : ℝ
  m3 : ℝ

/-- `double[6]`: rotation 0..3, translation 4..5. -/
@[ext] structure T2 where
  R : R2
  v : Cx

/-- The C operator `*` on complex numbers, as used at src/tf/tfp.c:48,81. -/
def cprod (a b : Cx) : Cx := ⟨a.re * b.re - a.im * b.im, a.re * b.im + a.im * b.re⟩

/-- src/tf/tfp.c:45-49 `aa_tf_crot`. -/
def crot (c v : Cx) : Cx := cprod v c

/-- src/tf/tfp.c:51-61 `aa_tf_rotmatp_rot`. -/
def rotmatpRot (R : R2) (v : Cx) : Cx := ⟨R.m0 * v.re + R.m2 * v.im, R.m1 * v.re + R.m3 * v.im⟩

/-- src/tf/tfp.c:62-66 `aa_tf_cconj`. -/
def cconj (c : Cx) : Cx := ⟨c.re, -c.im⟩

/-- src/tf/tfp.c:68-75 `aa_tf_rotmatp_inv2`. -/
def rotmatpInv2 (R : R2) : R2 := ⟨R.m0, R.m2, R.m1, R.m3⟩

/-- src/tf/tfp.c:77-81 `aa_tf_cmul`. -/
def cmul (a b : Cx) : Cx := cprod a b

/-- src/tf/tfp.c:83-93 `aa_tf_rotmatp_mul`. -/
def rotmatpMul (A B : R2) : R2 :=
  ⟨A.m0 * B.m0 + A.m2 * B.m1, A.m1 * B.m0 + A.m3 * B.m1,
   A.m0 * B.m2 + A.m2 * B.m3, A.m1 * B.m2 + A.m3 * B.m3⟩

/-- src/tf/tfp.c:95-99 `aa_tf_cpexp`; :124-128 `aa_tf_angle2cmplx`. -/
def cpexp (a : ℝ) : Cx := ⟨Real.cos a, Real.sin a⟩

/-- src/tf/tfp.c:101-105 `aa_tf_culn`; :107-111 `aa_tf_cmplx2angle`. -/
def culn (c : Cx) : ℝ := atan2 c.im c.re

/-- src/tf/tfp.c:113-121 `aa_tf_cmplx2rotmatp`. -/
def cmplx2rotmatp (c : Cx) : R2 := ⟨c.re, c.im, -c.im, c.re⟩

/-- src/tf/tfp.c:129-133 `aa_tf_angle2rotmatp`; :149-153 `aa_tf_rotmatp_pexp`. -/
def angle2rotmatp (a : ℝ) : R2 := cmplx2rotmatp (cpexp a)

/-- src/tf/tfp.c:135-141 `aa_tf_rotmatp2cmplx`. -/
def rotmatp2cmplx (R : R2) : Cx := ⟨(R.m0 + R.m3) / 2, (R.m1 - R.m2) / 2⟩

/-- src/tf/tfp.c:143-147 `aa_tf_rotmatp2angle`; :155-159 `aa_tf_rotmatp_uln`. -/
def rotmatp2angle (R : R2) : ℝ := culn (rotmatp2cmplx R)

/-- src/tf/tfp.c:165-178 `aa_tf_cv_tf`. -/
def cvTf (z v p : Cx) : Cx := ⟨v.re + z.re * p.re - z.im * p.im, v.im + z.im * p.re + z.re * p.im⟩

/-- src/tf/tfp.c:180-192 `aa_tf_tfmatp_tf`. -/
def tfmatpTf (T : T2) (p : Cx) : Cx :=
  ⟨T.v.re + T.R.m0 * p.re + T.R.m2 * p.im, T.v.im + T.R.m1 * p.re + T.R.m3 * p.im⟩

/-- src/tf/tfp.c:194-199 `aa_tf_cv2tfmatp`. -/
def cv2tfmatp (c v : Cx) : T2 := ⟨cmplx2rotmatp c, v⟩

/-- src/tf/tfp.c:201-206 `aa_tf_tfmatp2cv`. -/
def tfmatp2cv (T : T2) : Cx × Cx := (rotmatp2cmplx T.R, T.v)

/-- src/tf/tfp.c:208-217 `aa_tf_cv_mul`. -/
def cvMul (c1 v1 c2 v2 : Cx) : Cx × Cx := (cmul c1 c2, cvTf c1 v1 v2)

/-- src/tf/tfp.c:219-227 `aa_tf_tfmatp_mul`. -/
def tfmatpMul (A B : T2) : T2 := ⟨rotmatpMul A.R B.R, tfmatpTf A B.v⟩

/-- src/tf/tfp.c:229-235 `aa_tf_cv_inv`. -/
def cvInv (c v : Cx) : Cx × Cx :=
  (cconj c, ⟨-(crot (cconj c) v).re, -(crot (cconj c) v).im⟩)

/-- src/tf/tfp.c:237-243 `aa_tf_tfmatp_inv2`. -/
def tfmatpInv2 (T : T2) : T2 :=
  ⟨rotmatpInv2 T.R, rotmatpRot (rotmatpInv2 T.R) ⟨-T.v.re, -T.v.im⟩⟩

end

end Verif.Tfp
