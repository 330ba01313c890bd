import Verif.Model.Scalar

/-!
# Modulo and remainders of every width (include/amino/math.h)

Machine integers are integers with the checks that the C language makes of its users: `none` stands for
division by zero and for overflow of a signed type. The other scalar functions, and the 32-bit modulo on
its own, are in Model/Scalar.lean.
-/

namespace Verif.Num

/-- The values of a signed type of `w + 1` bits. -/
def InRange (w : Nat) (x : Int) : Prop := -2 ^ w ≤ x ∧ x ≤ 2 ^ w - 1

instance (w : Nat) (x : Int) : Decidable (InRange w x) := inferInstanceAs (Decidable (_ ∧ _))

/-- `%` of C on a signed type: truncating; undefined for zero, and if the quotient overflows. -/
def cRem (w : Nat) (a b : Int) : Option Int :=
  if b = 0 ∨ ¬ InRange w (a.tdiv b) then none else some (a.tmod b)

/-- `+` of C on a signed type. -/
def cAdd (w : Nat) (a b : Int) : Option Int := if InRange w (a + b) then some (a + b) else none

/-- include/amino/math.h:127-144 `AA_MODULO`; `aa_imodulo` (`w = 31`), `aa_lmodulo` and `aa_imodulo64`
(`w = 63`). The macro itself, inside larger expressions, is not modelled (it is not parenthesised). -/
def imodulo (w : Nat) (a b : Int) : Option Int := do
  let r ← cRem w a b
  let s ← cAdd w r b
  cRem w s b

/-- include/amino/math.h:147-149 `aa_iremainder` (`w = 31`). -/
def iremainder (w : Nat) (a b : Int) : Option Int := cRem w a b

/-- include/amino/math.h:157-159 `aa_fremainder`; `none` is the NaN of a divisor of zero. -/
noncomputable def fremainder (a b : ℝ) : Option ℝ := if b = 0 then none else some (Scalar.fmod a b)

/-- include/amino/math.h:300-307 `aa_ang_rad2deg`, `aa_ang_deg2rad`. -/
noncomputable def rad2deg (r : ℝ) : ℝ := r * 180 / Real.pi
noncomputable def deg2rad (d : ℝ) : ℝ := d * Real.pi / 180

end Verif.Num
