import Mathlib.Analysis.SpecialFunctions.Log.Basic
import Mathlib.Analysis.SpecialFunctions.Trigonometric.Basic
import Mathlib.Analysis.SpecialFunctions.Complex.Arg
import Mathlib.Data.Real.Sqrt

/-! Scalar helpers and statistics (include/amino/math.h, src/math.c). `double` is
modelled by the real numbers: rounding, NaN and infinities are not modelled. -/

namespace Verif.Scalar

open scoped Classical in
/-- `aa_fclamp` (math.h:82-86). -/
noncomputable def fclamp (val min max : ℝ) : ℝ :=
  if val > max then max else if val < min then min else val

open scoped Classical in
/-- `aa_clamp` (math.h:75-79). -/
noncomputable def clamp (val level : ℝ) : ℝ :=
  if val > level then level else if val < -level then -level else val

open scoped Classical in
/-- `aa_fdeadzone` (math.h:89-92). -/
noncomputable def fdeadzone (val min max deadval : ℝ) : ℝ :=
  if min < val ∧ max > val then deadval else val

open scoped Classical in
/-- `aa_vclamp` (math.h:95-100), elementwise. -/
noncomputable def vclamp (v : List ℝ) (min max : ℝ) : List ℝ :=
  v.map fun x => if x > max then max else if x < min then min else x

open scoped Classical in
/-- `aa_sign` (math.h:104-108). -/
noncomputable def sign (v : ℝ) : ℝ := if v > 0 then 1 else if v < 0 then -1 else 0

/-- The result of a C `int` operation: `none` if it does not fit in 32 bits. -/
def i32 (x : Int) : Option Int := if -2147483648 ≤ x ∧ x ≤ 2147483647 then some x else none

/-- `aa_imodulo`, macro `AA_MODULO` (math.h:128-134); `none` is undefined behaviour:
division by zero or signed overflow. -/
def imodulo (a b : Int) : Option Int := do
  if b = 0 then none
  let _ ← i32 (a.tdiv b)
  let s ← i32 (a.tmod b + b)
  some (s.tmod b)

/-- C `trunc`. -/
noncomputable def trunc (x : ℝ) : ℤ := open scoped Classical in if 0 ≤ x then ⌊x⌋ else ⌈x⌉

/-- C `fmod`: `a - b*trunc(a/b)`. -/
noncomputable def fmod (a b : ℝ) : ℝ := a - b * trunc (a / b)

/-- `aa_fmodulo` (math.h:152-154). -/
noncomputable def fmodulo (a b : ℝ) : ℝ := fmod (fmod a b + b) b

open scoped Classical in
/-- Round to nearest, ties to even. -/
noncomputable def roundEven (x : ℝ) : ℤ :=
  if x - ⌊x⌋ < 1 / 2 then ⌊x⌋
  else if 1 / 2 < x - ⌊x⌋ then ⌊x⌋ + 1
  else if Even ⌊x⌋ then ⌊x⌋ else ⌊x⌋ + 1

/-- C `remainder`: `a - b*roundeven(a/b)`. -/
noncomputable def remainder (a b : ℝ) : ℝ := a - b * roundEven (a / b)

/-- `aa_ang_norm_2pi` (math.h:311-313). -/
noncomputable def angNorm2pi (an : ℝ) : ℝ := fmodulo an (2 * Real.pi)
/-- `aa_ang_norm_pi` (math.h:316-319). -/
noncomputable def angNormPi (an : ℝ) : ℝ := remainder an (2 * Real.pi)
/-- `aa_ang_delta` (math.h:323-325). -/
noncomputable def angDelta (a b : ℝ) : ℝ := angNormPi (angNormPi a - angNormPi b)

/-- `aa_stat_mean` (src/math.c:100-104). -/
noncomputable def mean (x : List ℝ) : ℝ := x.foldl (· + ·) 0 / x.length

/-- `aa_stat_circ_mean` (src/math.c:113-122); `atan2 y x` is the argument of `x + iy`. -/
noncomputable def circMean (x : List ℝ) : ℝ :=
  let as := x.foldl (fun a t => a + Real.sin t) 0
  let ac := x.foldl (fun a t => a + Real.cos t) 0
  Complex.arg ⟨ac / x.length, as / x.length⟩

/-- `aa_stat_circ_std` (src/math.c:124-136). -/
noncomputable def circStd (x : List ℝ) : ℝ :=
  let as := x.foldl (fun a t => a + Real.sin t) 0
  let ac := x.foldl (fun a t => a + Real.cos t) 0
  let as := as / x.length
  let ac := ac / x.length
  let r := as * as + ac * ac
  Real.sqrt (-2 * Real.log r)

/-- `aa_stat_z2x`, `aa_stat_x2z` (math.h:212-220). -/
noncomputable def z2x (z mu sigma : ℝ) : ℝ := z * sigma + mu
noncomputable def x2z (x mu sigma : ℝ) : ℝ := (x - mu) / sigma

/-- `aa_stat_box_muller` (src/math.c:88-97). -/
noncomputable def boxMuller (x1 x2 : ℝ) : ℝ × ℝ :=
  let a := Real.sqrt (-2.0 * Real.log x1)
  let b := 2 * Real.pi * x2
  (a * Real.cos b, a * Real.sin b)

end Verif.Scalar
