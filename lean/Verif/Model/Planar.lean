import Verif.Model.Tf

/-!
# Planar two-link inverse kinematics (src/kin.c)
-/

namespace Verif.Planar

open Verif.Tf

/-- The radicand that all four expressions share (kin.c 55-61). -/
def radicand (l1 l2 x1 x2 : ℝ) : ℝ :=
  -x2*x2*(x2*x2+x1*x1-l1*l1+2*l2*l1-l2*l2)*(x2*x2+x1*x1-l1*l1-2*l2*l1-l2*l2)

/-- `aa_feq` (math.h 114-116). -/
def feq (a b tol : ℝ) : Prop := |a - b| ≤ tol

open Classical in
/-- `aa_kin_planar2_ik_theta2` (kin.c 47-68): the return value, `theta_a` and `theta_b`.  `none` is
a division by zero or the square root of a negative number, which give a NaN or an infinity. -/
noncomputable def ikTheta2 (l1 l2 x1 x2 : ℝ) : Option (ℕ × (ℝ × ℝ) × (ℝ × ℝ)) :=
  if x2*x2+x1*x1 = 0 ∨ x2 = 0 ∨ l1 = 0 ∨ l2 = 0 ∨ radicand l1 l2 x1 x2 < 0 then none
  else
    let s := Real.sqrt (radicand l1 l2 x1 x2)
    let a0 := atan2 ((x2*x2*x2*x2+x2*x2*x1*x1+x1*s-l2*l2*x2*x2+x2*x2*l1*l1)/(x2*x2+x1*x1)/x2/l1)
      ((x2*x2*x1+x1*x1*x1-l2*l2*x1+x1*l1*l1-s)/(x2*x2+x1*x1)/l1)
    let b0 := atan2 ((x2*x2*x2*x2+x2*x2*x1*x1-x1*s-l2*l2*x2*x2+x2*x2*l1*l1)/(x2*x2+x1*x1)/x2/l1)
      ((x2*x2*x1+x1*x1*x1-l2*l2*x1+x1*l1*l1+s)/(x2*x2+x1*x1)/l1)
    let a1 := atan2 ((x2*x2*x1*x1-x1*s+l2*l2*x2*x2+x2*x2*x2*x2-x2*x2*l1*l1)/(x2*x2+x1*x1)/l2/x2)
      ((l2*l2*x1-x1*l1*l1+x2*x2*x1+x1*x1*x1+s)/(x2*x2+x1*x1)/l2)
    let b1 := atan2 ((x2*x2*x1*x1+x1*s+l2*l2*x2*x2+x2*x2*x2*x2-x2*x2*l1*l1)/(x2*x2+x1*x1)/l2/x2)
      ((l2*l2*x1-x1*l1*l1+x2*x2*x1+x1*x1*x1-s)/(x2*x2+x1*x1)/l2)
    some (if feq (l1*Real.cos a0 + l2*Real.cos a1) x1 0.001 ∧
        feq (l1*Real.sin a0 + l2*Real.sin a1) x2 0.001 ∧
        feq (l1*Real.cos b0 + l2*Real.cos b1) x1 0.001 ∧
        feq (l1*Real.sin b0 + l2*Real.sin b1) x2 0.001 then 0 else 1, (a0, a1), (b0, b1))

end Verif.Planar
