import Verif.Model.TfPde
import Verif.Model.TfConv
import Verif.Model.TfAvg

/-!
# The half of the transform library that is written in Fortran (src/tff.F90)

The subroutines of the module `amino_tf` that have a body there and a C name. Over the reals (rounding is
not modelled); `epsilon(x)` of a `real(C_DOUBLE)` is `dblEpsilon`. The dual numbers of the same file are
in Model/Dual.lean.
-/

namespace Verif.Tf

noncomputable section

/-- src/tff.F90:2452-2500 `aa_tf_rotvec_qjac`: entry (row, column) of `G(4,3)`. -/
def rotvecQjac (v : V3) : Fin 4 → Fin 3 → ℝ :=
  let n := Real.sqrt (vdot v v)
  if 0 ≥ n then
    ![![1 / 2, 0, 0],
      ![0, 1 / 2, 0],
      ![0, 0, 1 / 2],
      ![-v.x / 4, -v.y / 4, -v.z / 4]]
  else
    let s := Real.sin (n / 2)
    let c := Real.cos (n / 2)
    let a := c * n - 2 * s
    let G : Fin 4 → Fin 3 → ℝ :=
      ![![2 * n * n * s + v.x * v.x * a, v.x * v.y * a, v.x * v.z * a],
        ![v.x * v.y * a, 2 * n * n * s + v.y * v.y * a, v.y * v.z * a],
        ![v.x * v.z * a, v.y * v.z * a, 2 * n * n * s + v.z * v.z * a],
        ![-v.x * n * n * s, -v.y * n * n * s, -v.z * n * n * s]]
    fun i j => G i j / (2 * n ^ 3)

/-- src/tff.F90:2502-2534 `aa_tf_rotvec_diff2qdiff`. -/
def rotvecDiff2qdiff (v dv : V3) : Quat :=
  let y : V3 := ⟨v.x / 2, v.y / 2, v.z / 2⟩
  let dy : V3 := ⟨dv.x / 2, dv.y / 2, dv.z / 2⟩
  let phi2 := vdot y y
  let k : ℝ × ℝ :=
    if phi2 < Real.sqrt dblEpsilon then
      (sincSeries2 phi2, horner3 phi2 (-1 / 3) (1 / 30) (-1 / 840))
    else
      let phi := Real.sqrt phi2
      let sinc := Real.sin phi / phi
      (sinc, (Real.cos phi - sinc) / phi2)
  let ydy := vdot y dy
  ⟨k.1 * dy.x + k.2 * ydy * y.x, k.1 * dy.y + k.2 * ydy * y.y, k.1 * dy.z + k.2 * ydy * y.z, -ydy * k.1⟩

/-- src/tff.F90:2537-2545 `aa_tf_rotvec_diff2vel`. -/
def rotvecDiff2vel (v dv : V3) : V3 := qdiff2vel (rotvec2quat v) (rotvecDiff2qdiff v dv)

/-- src/tff.F90:2149-2158 `aa_tf_qsquad`. -/
def qsquad (h : ℝ) (q1 q2 s1 s2 : Quat) : Quat :=
  let rq := qslerp h q1 q2
  let rs := qslerp h s1 s2
  qslerp (2 * h * (1 - h)) rq rs

/-- src/tff.F90:2161-2173 `aa_tf_qsquad_param`; `none` if a logarithm divides by zero. -/
def qsquadParam (q1 q2 q3 : Quat) : Option Quat :=
  (qln (qcmul q2 q1)).bind fun l21 => (qln (qcmul q2 q3)).map fun l23 =>
    qmul q2 (qexp ⟨-(l21.x + l23.x) / 4, -(l21.y + l23.y) / 4, -(l21.z + l23.z) / 4, -(l21.w + l23.w) / 4⟩)

/-- src/tff.F90:2298-2314 `aa_tf_qslerp3diff`: `(q, dq)`; `none` if `aa_tf_qslerpchaindiff` divides by zero.
The divisors of `aa_tf_qslerpdiff` are values of `aa_tf_sinc` on `[0, pi/2]`, which are not zero. -/
def qslerp3diff (u12 du12 : ℝ) (q1 q2 : Quat) (u34 du34 : ℝ) (q3 q4 : Quat) (u du : ℝ) : Option (Quat × Quat) :=
  let scal := fun (q : Quat) (k : ℝ) => (⟨q.x * k, q.y * k, q.z * k, q.w * k⟩ : Quat)
  let q12 := qslerp u12 q1 q2
  let dq12 := scal (qslerpdiff u12 q1 q2) du12
  let q34 := qslerp u34 q3 q4
  let dq34 := scal (qslerpdiff u34 q3 q4) du34
  qslerpchaindiff u du q12 dq12 q34 dq34

/-- src/tff.F90:2603-2612 `aa_tf_horner` with an array `a(1:n)`: the loop runs from `1-n` to 1; `none` is a
read outside of the array. -/
def hornerLoop (x : ℝ) (n : Nat) (a : Int → ℝ) : Nat → Int → ℝ → Option ℝ
  | 0, _, y => some y
  | k + 1, i, y =>
    if i > 1 then some y
    else if i < 1 ∨ i > n then none
    else hornerLoop x n a k (i + 1) (a i + x * y)

/-- src/tff.F90:2603-2612 `aa_tf_horner`; the fuel `n + 2` is more than the iterations from `1-n` to 1. -/
def horner (x : ℝ) (n : Nat) (a : Int → ℝ) : Option ℝ :=
  if n = 0 then none else hornerLoop x n a (n + 2) (1 - n) (a n)

/-- src/tff.F90:2615-2621 `aa_tf_horner3`. -/
def hornerF3 (x a0 a1 a2 : ℝ) : ℝ :=
  let y := a2
  let y := a1 + x * y
  a0 + x * y

/-- src/tff.F90:2624-2631 `aa_tf_horner4`. -/
def hornerF4 (x a0 a1 a2 a3 : ℝ) : ℝ :=
  let y := a3
  let y := a2 + x * y
  let y := a1 + x * y
  a0 + x * y

/-- src/tff.F90:2634-2642 `aa_tf_horner5`. -/
def hornerF5 (x a0 a1 a2 a3 a4 : ℝ) : ℝ :=
  let y := a4
  let y := a3 + x * y
  let y := a2 + x * y
  let y := a1 + x * y
  a0 + x * y

end

end Verif.Tf

namespace Verif.TfAvg

open Verif.Tf Verif.Mat

/-- the translation of the pose in column `i`, `EE(5:7,i)`. -/
def colV (ee ld i : Nat) (m : Mem ℝ) : V3 := ⟨m (ee + i * ld + 4), m (ee + i * ld + 5), m (ee + i * ld + 6)⟩

/-- src/tff.F90:3008-3022 `aa_tf_qutr_wavg`: the quaternion and the translation that are stored in `a`;
`none` is the access `w(i)` through a NULL pointer (`aa_tf_quat_davenport` accepts one). -/
noncomputable def qutrWavg (eev : Eev) (n : Nat) (w : Option (Nat → ℝ)) (ee ld : Nat) (m : Mem ℝ) :
    Option (Quat × V3) :=
  let q := davenport eev n w ee ld m
  match w with
  | none => if n = 0 then some (q, ⟨0, 0, 0⟩) else none
  | some w => some (q, forN n (fun i (a : V3) =>
      ⟨a.x + w i * (colV ee ld i m).x, a.y + w i * (colV ee ld i m).y, a.z + w i * (colV ee ld i m).z⟩) ⟨0, 0, 0⟩)

end Verif.TfAvg
