import Verif.Model.Tf
import Verif.Model.TfCheck

/-! # Colours (src/cv.c:47-71), over the reals. -/

namespace Verif.Cv

/-- three numbers. -/
structure V3 where
  a : ℝ
  b : ℝ
  c : ℝ

/-- src/cv.c:53. -/
noncomputable def alpha (rgb : V3) : ℝ := (1 / 2) * (2 * rgb.a - rgb.b - rgb.c)

/-- src/cv.c:54. -/
noncomputable def beta (rgb : V3) : ℝ := (√3 / 2) * (rgb.b - rgb.c)

/-- src/cv.c:55. -/
noncomputable def chroma (rgb : V3) : ℝ := √(alpha rgb * alpha rgb + beta rgb * beta rgb)

/-- include/amino/math.h:63-66 `AA_MAX`. -/
noncomputable def cmax (x y : ℝ) : ℝ := if x > y then x else y

/-- src/cv.c:47-71 `aa_cv_rgb2hsv`; `none` is a division by zero. -/
noncomputable def rgb2hsv (rgb : V3) : Option V3 :=
  let v := cmax (cmax rgb.a rgb.b) rgb.c
  let h := Tf.atan2 (beta rgb) (alpha rgb)
  if Tf.feq (chroma rgb) 0 0 then some ⟨h, 0, v⟩
  else if v = 0 then none
  else some ⟨h, chroma rgb / v, v⟩

end Verif.Cv
